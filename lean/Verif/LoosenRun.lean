import Verif.Loosen
/-!
# Lemmas: two runs, one with conditions that are easier to satisfy
-/

set_option linter.unusedSectionVars false

namespace GS
open Spec TimeScale
variable {α κ W : Type _} [DecidableEq α] [DecidableEq κ]
variable {id : Option κ} {s s' s0 s1 t t' t0 t1 x x1 : Sys α κ W}
variable {a a' : RunArgs α κ W} {e e' e1 l l1 : List α} {ns layer : List α} {n : α}
variable {w w' : List (List α) → World α κ W} {k p : Nat}
variable {ys ys' : List (List α)} {py py' : List (List (List α))} {o : Option Nat}
variable {f f' f2 : TimeScale → α → Nat} {u u' u2 : α → α → Nat} {g g' : TimeScale → α → Nat}

/-- Each node is at one place of the queue. -/
def Once (q : List (List α)) : Prop := ∀ i j n, n ∈ setAt q i → n ∈ setAt q j → i = j

theorem setAt_mem {q : List (List α)} {i : Nat} (h : n ∈ setAt q i) : setAt q i ∈ q := by
  unfold setAt at h ⊢
  cases hq : q[i]? with
  | none => rw [hq] at h; cases h
  | some l =>
    obtain ⟨hi, rfl⟩ := List.getElem?_eq_some_iff.1 hq
    exact List.getElem_mem hi

theorem Spec.Separate.not {q : List (List α)} {d b : α} (h : Separate q d b) (i : Nat) :
    ¬ (d ∈ setAt q i ∧ b ∈ setAt q i) := fun hi => h.2 _ (setAt_mem hi.1) hi

/-- `b` has the condition `EveryNCalls(d, k)`. -/
structure Every (s : Sys α κ W) (b : α) (o : Nat) (d : α) (k : Int) : Prop where
  cond : Dict.get? s.conds b = some (.leaf o (.everyNCalls d k))
  owner : s.store.owner o = some b
  apart : Separate s.queue d b
  listed : ∃ i, b ∈ setAt s.queue i
  pos : 0 < k

theorem Every.back {b d : α} {o : Nat} {k : Int} (h : Every s' b o d k) (hc : s'.conds = s.conds)
    (ho : s'.store.owner = s.store.owner) (hq : s'.queue = s.queue) : Every s b o d k :=
  ⟨by rw [← hc]; exact h.cond, by rw [← ho]; exact h.owner, by rw [← hq]; exact h.apart,
    by rw [← hq]; exact h.listed, h.pos⟩

theorem eval_every_true {d b : α} {o : Nat} {k : Int} {st : Store α κ}
    (h : (eval s.toView id (.leaf o (.everyNCalls d k)) st).1 = .ok true) (ho : st.owner o = some b)
    (hu : Dict.get? s.countsUseable id = some u) : k ≤ u d b := by
  simp only [eval, evalLeaf, ho, View.useable, hu] at h
  grind

theorem eval_every_false {d b : α} {o : Nat} {k : Int} {st : Store α κ}
    (h : (eval s.toView id (.leaf o (.everyNCalls d k)) st).1 = .ok false) (ho : st.owner o = some b)
    (hu : Dict.get? s.countsUseable id = some u) : (u d b : Int) < k := by
  simp only [eval, evalLeaf, ho, View.useable, hu] at h
  grind

/-- The set of `d` was dealt with more recently than that of `b`, before position `p`. -/
def Pend (q : List (List α)) (p : Nat) (d b : α) : Prop :=
  ∃ i j, b ∈ setAt q i ∧ d ∈ setAt q j ∧ ((i < j ∧ (j < p ∨ p ≤ i)) ∨ (j < p ∧ p ≤ i))

/-- The counters at position `p` of a pass. -/
structure Books (id : Option κ) (g : TimeScale → α → Nat) (s : Sys α κ W) (p : Nat)
    (f : TimeScale → α → Nat) (u : α → α → Nat) : Prop where
  total : Dict.get? s.countsTotal id = some f
  useable : Dict.get? s.countsUseable id = some u
  base : ∀ ts m, TimeScale.pass.val < ts.val → f ts m = g ts m + f environment_state_update m
  every : ∀ b o d k, Every s b o d k →
    (f environment_state_update b : Int) * k + u d b = f environment_state_update d ∧
    (u d b : Int) ≤ k ∧ (¬ Pend s.queue p d b → (u d b : Int) < k)

/-! ## One set -/

theorem Considers.fires {b d : α} {o : Nat} {k : Int} (h : Considers id s e n s1 e1)
    (hE : Every s b o d k) (hb : b ∈ e1) (hb' : b ∉ e)
    (hu : Dict.get? s.countsUseable id = some u) : k ≤ u d b := by
  cases h with
  | skip => exact absurd hb hb'
  | reject => exact absurd hb hb'
  | @add c st f u' h1 h2 h3 h4 h5 =>
    rcases List.mem_append.1 hb with hb | hb
    · exact absurd hb hb'
    · obtain rfl := List.mem_singleton.1 hb
      rw [hE.cond] at h2; cases h2
      exact eval_every_true (by rw [h3]) hE.owner hu

theorem Sweep.fires {b d : α} {o : Nat} {k : Int} (h : Sweep id s ns e s' e') (hn : ∀ m ∈ ns, m ∈ layer)
    (hd : d ∉ layer) (hde : d ∉ e) : ∀ {u}, Every s b o d k → b ∈ e' → b ∉ e →
    Dict.get? s.countsUseable id = some u → k ≤ u d b := by
  induction h with
  | nil => intro u _ hb hb' _; exact absurd hb hb'
  | @cons s s1 s' n ns e e1 e' hc _ ih =>
    intro u hE hb hb' hu
    have m := hc.moved (hn _ List.mem_cons_self)
    by_cases hb1 : b ∈ e1
    · exact hc.fires hE hb1 hb' hu
    · obtain ⟨u1, k1, k2⟩ := m.useable u hu
      have hd1 : d ∉ e1 := fun h => (m.new d h).elim hde hd
      have := ih (fun x hx => hn x (by simp [hx])) hd1 (hE.back m.conds.symm m.owner.symm m.queue.symm) hb hb1 k1
      rw [k2 d b hE.apart.1 (fun h => hd h.1)] at this
      simpa [hb1, hd1] using this

theorem Loop.fires {b d : α} {o : Nat} {k : Int} (h : Loop id layer s e s' e')
    (hd : d ∉ layer) (hde : d ∉ e) : ∀ {u}, Every s b o d k → b ∈ e' → b ∉ e →
    Dict.get? s.countsUseable id = some u → k ≤ u d b := by
  induction h with
  | last h => exact h.fires (fun _ h => h) hd hde
  | @more s s1 s' e e1 e' h _ _ ih =>
    intro u hE hb hb' hu
    have m := h.moved (layer := layer) fun _ h => h
    by_cases hb1 : b ∈ e1
    · exact h.fires (fun _ h => h) hd hde hE hb1 hb' hu
    · obtain ⟨u1, k1, k2⟩ := m.useable u hu
      have hd1 : d ∉ e1 := fun h => (m.new d h).elim hde hd
      have := ih hd1 (hE.back m.conds.symm m.owner.symm m.queue.symm) hb hb1 k1
      rw [k2 d b hE.apart.1 (fun h => hd h.1)] at this
      simpa [hb1, hd1] using this

theorem Loop.books (h : Loop id (setAt s.queue p) s [] s' e) (hq : Once s.queue)
    (hb : Books id g s p f u) : ∃ f' u', Books id g s' (p + 1) f' u' ∧
      ∀ m, f' environment_state_update m = f environment_state_update m + if m ∈ e then 1 else 0 := by
  have m := h.moved
  obtain ⟨f', k1, k2⟩ := m.total f hb.total
  obtain ⟨u', k3, k4⟩ := m.useable u hb.useable
  have new : ∀ x ∈ e, x ∈ setAt s.queue p := fun x hx => (m.new x hx).resolve_left (by simp)
  refine ⟨f', u', ⟨k1, k3, fun ts x hx => ?_, fun b o d k hE => ?_⟩, fun x => by simpa using k2 _ x⟩
  · rw [k2, k2, hb.base ts x hx]; omega
  · have hE := hE.back m.conds m.owner m.queue
    obtain ⟨q1, q2, q3⟩ := hb.every b o d k hE
    rw [k2, k2, k4 d b hE.apart.1 (hE.apart.not p), m.queue]
    by_cases hbl : b ∈ setAt s.queue p
    · have hd : d ∉ setAt s.queue p := fun hd => hE.apart.not p ⟨hd, hbl⟩
      have hde : d ∉ e := fun h => hd (new d h)
      by_cases hbe : b ∈ e
      · have := h.fires hd (by simp) hE hbe (by simp) hb.useable
        have := hE.pos
        simp only [hbe, hde, List.not_mem_nil, not_false_eq_true, and_self, and_true, if_true, if_false]
        refine ⟨?_, by simp; omega, fun _ => by simp; omega⟩
        push_cast
        rw [Int.add_mul]
        omega
      · obtain ⟨c, st, r1, r2, r3⟩ := h.rejected b hbl hbe
        rw [m.conds, hE.cond] at r1; cases r1
        have := eval_every_false r2 (by rw [r3, m.owner]; exact hE.owner) k3
        rw [k4 d b hE.apart.1 (hE.apart.not p)] at this
        simp only [hbe, hde, List.not_mem_nil, not_false_eq_true, and_true, if_false, Nat.add_zero] at this ⊢
        exact ⟨q1, q2, fun _ => this⟩
    · have hbe : b ∉ e := fun h => hbl (new b h)
      by_cases hd : d ∈ setAt s.queue p
      · have hlt : (u d b : Int) < k := by
          apply q3
          rintro ⟨i, j, hi, hj, hij⟩
          have := hq j p d hj hd
          omega
        have hp : Pend s.queue (p + 1) d b := by
          obtain ⟨i, hi⟩ := hE.listed
          have : i ≠ p := fun h => hbl (h ▸ hi)
          exact ⟨i, p, hi, hd, by omega⟩
        by_cases hde : d ∈ e
        · simp only [hbe, hde, List.not_mem_nil, not_false_eq_true, and_true, if_true, if_false, Nat.add_zero]
          exact ⟨by push_cast; omega, by push_cast; omega, fun h => absurd hp h⟩
        · simp only [hbe, hde, List.not_mem_nil, not_false_eq_true, and_true, if_false, Nat.add_zero]
          exact ⟨q1, q2, fun h => absurd hp h⟩
      · have hde : d ∉ e := fun h => hd (new d h)
        simp only [hbe, hde, List.not_mem_nil, not_false_eq_true, and_true, if_false, Nat.add_zero]
        refine ⟨q1, q2, fun h => q3 ?_⟩
        rintro ⟨i, j, hi, hj, hij⟩
        refine h ⟨i, j, hi, hj, ?_⟩
        have : i ≠ p := fun h => hbl (h ▸ hi)
        have : j ≠ p := fun h => hd (h ▸ hj)
        omega

/-! ## One run -/

theorem Books.keep (h : Books id g s p f u) (hc : s'.conds = s.conds)
    (ho : s'.store.owner = s.store.owner) (hq : s'.queue = s.queue)
    (ht : Dict.get? s'.countsTotal id = Dict.get? s.countsTotal id)
    (hu : Dict.get? s'.countsUseable id = Dict.get? s.countsUseable id) : Books id g s' p f u where
  total := ht.trans h.total
  useable := hu.trans h.useable
  base := h.base
  every b o d k hE := by rw [hq]; exact h.every b o d k (hE.back hc ho hq)

theorem setAt_none {q : List (List α)} {i : Nat} (h : q[i]? = none) : setAt q i = [] := by
  simp [setAt, h]

theorem lt_of_setAt {q : List (List α)} {i j : Nat} (h : n ∈ setAt q i) (hj : q[j]? = none) : i < j := by
  rw [List.getElem?_eq_none_iff] at hj
  rcases Nat.lt_or_ge i q.length with hi | hi
  · omega
  · rw [setAt_none (List.getElem?_eq_none_iff.2 hi)] at h; cases h

theorem Books.at {p' : Nat} (h : Books id g s p f u)
    (hp : ∀ d b, Pend s.queue p d b → Pend s.queue p' d b) : Books id g s p' f u where
  total := h.total
  useable := h.useable
  base := h.base
  every b o d k hE := by
    obtain ⟨q1, q2, q3⟩ := h.every b o d k hE
    exact ⟨q1, q2, fun hn => q3 fun h => hn (hp _ _ h)⟩

theorem Books.over {p' : Nat} (h : Books id g s p f u) (hq : s.queue[p]? = none)
    (hp : p' = p + 1 ∨ p' = 0) : Books id g s p' f u := by
  refine h.at ?_
  rintro d b ⟨i, j, hi, hj, hij⟩
  have := lt_of_setAt hi hq
  have := lt_of_setAt hj hq
  exact ⟨i, j, hi, hj, by omega⟩

theorem addToLast_flatten {β : Type _} (l : List (List β)) (y : β) (h : l ≠ []) :
    (addToLast l y).flatten = l.flatten ++ [y] := by
  rcases List.eq_nil_or_concat l with rfl | ⟨l, p, rfl⟩
  · exact absurd rfl h
  · rw [List.concat_eq_append] at *
    rw [addToLast_snoc]; simp

/-- How many of these sets contain the node. -/
def ranTimes (n : α) (ys : List (List α)) : Nat := (ys.filter fun y => decide (n ∈ y)).length

theorem ranTimes_snoc (ys : List (List α)) (y : List α) :
    ranTimes n (ys ++ [y]) = ranTimes n ys + if n ∈ y then 1 else 0 := by
  unfold ranTimes
  by_cases h : n ∈ y <;> simp [h]

/-- The counters at each position of a run. -/
theorem Pos.books (h : Pos w a s0 k o ys py s) (hq : Once s0.queue) :
    ∃ s1 g f u, s0.start a = (s1, .ok false) ∧ Dict.get? s1.countsTotal a.id = some g ∧
      Books a.id g s (o.getD 0) f u ∧ (∀ m, f environment_state_update m = ranTimes m ys) ∧
      py.flatten = ys ∧ s.queue = s1.queue ∧ s1.queue = s0.queue ∧ s.nodes = s1.nodes ∧ s.conds = s1.conds ∧
      s.store.owner = s1.store.owner := by
  induction h with
  | @start s hs =>
    obtain ⟨f, h1, h2, _⟩ := (Sys.start_ok hs).total
    refine ⟨s, f, f, fun _ _ => 0, hs, h1, ⟨h1, (Sys.start_ok hs).useable, fun ts m _ => ?_,
      fun b o d k hE => ?_⟩, fun m => ?_, rfl, rfl, (Sys.start_ok hs).queue, rfl, rfl, rfl⟩
    · rw [h2 environment_state_update m (by decide)]; rfl
    · rw [h2 _ _ (by decide), h2 _ _ (by decide)]
      have := hE.pos
      exact ⟨by simp, by simp; omega, fun _ => by simpa using this⟩
    · rw [h2 _ _ (by decide)]; rfl
  | @pass k ys py st f s h1 h2 h3 ih =>
    obtain ⟨s1, g, f0, u, k1, k2, k3, k4, k5, k6, k7, k8, k9, k10⟩ := ih
    rw [k3.total] at h3; cases h3
    refine ⟨s1, g, resetF .pass f, u, k1, k2, ⟨Dict.get?_set_self .., k3.useable, fun ts m hm => ?_,
      fun b o d k hE => ?_⟩, fun m => ?_, by simp [k5], k6, k7, k8, k9, h2.owner.trans k10⟩
    · rw [resetF_gt hm, resetF_gt (by decide)]; exact k3.base ts m hm
    · rw [resetF_gt (by decide), resetF_gt (by decide)]
      exact k3.every b o d k (hE.back rfl h2.owner rfl)
    · rw [resetF_gt (by decide)]; exact k4 m
  | @silent k i ys py st layer s s' h1 h2 h3 h4 ih =>
    obtain ⟨s1, g, f, u, k1, k2, k3, k4, k5, k6, k7, k8, k9, k10⟩ := ih
    have k3 : Books a.id g (s.putStore st) i f u := k3.keep rfl h3.owner rfl rfl rfl
    have hl : setAt (s.putStore st).queue i = layer := by show setAt s.queue i = _; rw [setAt, h2]; rfl
    have m := h4.moved
    rw [← hl] at h4
    obtain ⟨f', u', b1, b2⟩ := h4.books (by show Once s.queue; rw [k6, k7]; exact hq) k3
    exact ⟨s1, g, f', u', k1, k2, b1, fun x => by rw [b2]; simpa using k4 x, k5, m.queue.trans k6, k7,
      m.nodes.trans k8, m.conds.trans k9, m.owner.trans (h3.owner.trans k10)⟩
  | @shown k i ys py st layer e l c s s' h1 h2 h3 h4 h5 ih =>
    obtain ⟨s1, g, f, u, k1, k2, k3, k4, k5, k6, k7, k8, k9, k10⟩ := ih
    have k3 : Books a.id g (s.putStore st) i f u := k3.keep rfl h3.owner rfl rfl rfl
    have hl : setAt (s.putStore st).queue i = layer := by show setAt s.queue i = _; rw [setAt, h2]; rfl
    have m := h4.moved
    rw [← hl] at h4
    obtain ⟨f', u', b1, b2⟩ := h4.books (by show Once s.queue; rw [k6, k7]; exact hq) k3
    have hpy : py ≠ [] := fun hp => by have := h1.length; rw [hp] at this; simp [begun] at this
    exact ⟨s1, g, f', u', k1, k2, b1.keep rfl rfl rfl rfl rfl, fun x => by rw [b2, ranTimes_snoc, k4],
      by rw [addToLast_flatten _ _ hpy, k5], m.queue.trans k6, k7,
      m.nodes.trans k8, m.conds.trans k9, m.owner.trans (h3.owner.trans k10)⟩
  | over h1 h2 ih =>
    obtain ⟨s1, g, f, u, k1, k2, k3, k4⟩ := ih
    exact ⟨s1, g, f, u, k1, k2, k3.over h2 (.inl rfl), k4⟩
  | passEnd h1 h2 h3 ih =>
    obtain ⟨s1, g, f, u, k1, k2, k3, k4⟩ := ih
    exact ⟨s1, g, f, u, k1, k2, (k3.over h2 (.inr rfl)).keep rfl rfl rfl rfl rfl, k4⟩
  | @passEmpty k i ys py l c1 c2 s h1 h2 h3 h4 ih =>
    obtain ⟨s1, g, f, u, k1, k2, k3, k4, k5, k6⟩ := ih
    have hpy : py ≠ [] := fun hp => by have := h1.length; rw [hp] at this; simp [begun] at this
    exact ⟨s1, g, f, u, k1, k2, (k3.over h2 (.inr rfl)).keep rfl rfl rfl rfl rfl,
      fun x => by rw [ranTimes_snoc, k4]; simp, by rw [addToLast_flatten _ _ hpy, k5], k6⟩

/-! ## Two runs -/

/-- The clocks agree, leaving aside consideration set executions. -/
def Abreast (id : Option κ) (s t : Sys α κ W) : Prop :=
  ∃ log log', Shows (s.clock id) log ∧ Shows (t.clock id) log' ∧ log'.filter coarse = log.filter coarse

theorem Abreast.advance {d : List TimeScale} (h : Abreast id s t) (c : Advanced d (s.clock id) (s'.clock id))
    (c' : Advanced d (t.clock id) (t'.clock id)) : Abreast id s' t' := by
  obtain ⟨l, l', h1, h2, h3⟩ := h
  obtain ⟨m, g1, g2⟩ := c l h1
  obtain ⟨m', g1', g2'⟩ := c' l' h2
  exact ⟨m, m', g1, g1', by rw [g2, g2', h3]⟩

theorem Sys.clock_congr (h : s'.clocks = s.clocks) : s'.toView.clock id = s.toView.clock id := by
  simp only [View.clock, h]

/-- The conditions of the second scheduler are easier to satisfy. -/
def Easier (id : Option κ) (s t : Sys α κ W) (n : α) : Prop :=
  ∃ c c', Dict.get? s.conds n = some c ∧ Dict.get? t.conds n = some c' ∧ Loosened id s t n c c'

theorem Easier.keep (h : Easier id s t n) (hc : s'.conds = s.conds) (ho : s'.store.owner = s.store.owner)
    (hq : s'.queue = s.queue) (hc' : t'.conds = t.conds) (ho' : t'.store.owner = t.store.owner) :
    Easier id s' t' n := by
  obtain ⟨c, c', h1, h2, h3⟩ := h
  refine ⟨c, c', by rw [hc, h1], by rw [hc', h2], ?_⟩
  unfold Loosened at h3 ⊢
  rw [ho, ho', hq]; exact h3

/-- One set in two runs: no node falls behind. -/
theorem Loop.ahead (hq : Once s.queue) (hqt : t.queue = s.queue) (hn : t.nodes = s.nodes)
    (hw : t.world = s.world) (hl : Abreast id s t)
    (he : ∀ m ∈ setAt s.queue p, Easier id s t m)
    (hg : ∀ ts m, TimeScale.pass.val < ts.val → g ts m ≤ g' ts m)
    (hb : Books id g s p f u) (hb2 : Books id g' t p f2 u2)
    (hle : ∀ m, f environment_state_update m ≤ f2 environment_state_update m)
    (h : Loop id (setAt s.queue p) s [] s' e) (h2 : Loop id (setAt s.queue p) t [] t' e') (m : α) :
    (f environment_state_update m + if m ∈ e then 1 else 0) ≤
      f2 environment_state_update m + if m ∈ e' then 1 else 0 := by
  have mt := h2.moved
  rw [← hqt] at h2
  obtain ⟨f2', u2', b1, b2⟩ := h2.books (hqt ▸ hq) hb2
  rw [hqt] at h2
  have new2 : ∀ x ∈ e', x ∈ setAt s.queue p := fun x hx => (mt.new x hx).resolve_left (by simp)
  -- one node
  have one : ∀ {x x1 : Sys α κ W} {l l1 : List α} {n : α}, Considers id x l n x1 l1 → n ∈ setAt s.queue p →
      Moved id (setAt s.queue p) s [] x l →
      (∀ m ∈ l, f environment_state_update m + 1 ≤ f2' environment_state_update m) →
      ∀ m ∈ l1, f environment_state_update m + 1 ≤ f2' environment_state_update m := by
    intro x x1 l l1 n hc hnl mx ih
    cases hc with
    | skip => exact ih
    | reject => exact ih
    | @add c st fx ux h1 h2' h3 h4 h5 =>
      intro y hy
      rcases List.mem_append.1 hy with hy | hy
      · exact ih y hy
      · obtain rfl := List.mem_singleton.1 hy
        obtain ⟨c1, c2, q1, q2, q3⟩ := he y hnl
        rw [mx.conds, q1] at h2'; cases h2'
        rcases q3 with q3 | ⟨o, d, k, o', k', rfl, rfl, r1, r2, r3, r4, r5⟩
        · have hA : Ahead id x.toView t'.toView := by
            refine ⟨(mt.nodes.trans hn).trans mx.nodes.symm, (mt.world.trans hw).trans mx.world.symm, ?_, ?_⟩
            · obtain ⟨fx', y1, y2⟩ := mx.total f hb.total
              refine ⟨fx', f2', y1, b1.total, fun ts z hz => ?_⟩
              rw [y2, b1.base ts z hz, hb.base ts z hz]
              have := hg ts z hz
              by_cases hzl : z ∈ l
              · have := ih z hzl
                simp [hzl]; omega
              · have := hle z
                have := b2 z
                simp only [hzl, false_and, if_false]; omega
            · obtain ⟨log, log', l1, l2, l3⟩ := hl
              refine ⟨log, log', ?_, ?_, l3⟩
              · rw [Sys.clock_congr mx.clocks]; exact l1
              · rw [Sys.clock_congr mt.clocks]; exact l2
          have hy' : y ∈ e' := by
            refine Classical.byContradiction fun hy' => ?_
            obtain ⟨c3, st3, z1, z2, z3⟩ := h2.rejected y hnl hy'
            rw [mt.conds, q2] at z1; cases z1
            exact q3 _ _ x.store st3 hA (by rw [h3]) z2
          have := b2 y
          have := hle y
          simp only [hy', if_true] at *
          omega
        · have hd : d ∉ setAt s.queue p := fun hd => r5.not p ⟨hd, hnl⟩
          have hE : Every s y o d k := ⟨q1, r3, r5, ⟨p, hnl⟩, by omega⟩
          have hE2 : Every t' y o' d k' :=
            ⟨by rw [mt.conds, q2], by rw [mt.owner]; exact r4, by rw [mt.queue, hqt]; exact r5,
              ⟨p, by rw [mt.queue, hqt]; exact hnl⟩, r1⟩
          have e1 := (hb.every y o d k hE).1
          obtain ⟨e2, _, e4⟩ := b1.every y o' d k' hE2
          have e4 := e4 (by
            rw [mt.queue, hqt]
            rintro ⟨i, j, hi, hj, hij⟩
            have := hq i p y hi hnl
            have : j ≠ p := fun h => hd (h ▸ hj)
            omega)
          have hdl : d ∉ l := fun h => hd ((mx.new d h).resolve_left (by simp))
          obtain ⟨ux', y1, y2⟩ := mx.useable u hb.useable
          have e5 := eval_every_true (b := y) (by rw [h3]) (by rw [mx.owner]; exact r3) y1
          rw [y2 d y r5.1 (fun h => hd h.1)] at e5
          simp only [h1, hdl, false_and, if_false, Nat.add_zero] at e5
          have hde : d ∉ e' := fun h => hd (new2 d h)
          have e6 := b2 d
          simp only [hde, if_false, Nat.add_zero] at e6
          have e7 := hle d
          have e8 : ((f environment_state_update y : Int) + 1) * k < ((f2' environment_state_update y : Int) + 1) * k' := by
            rw [Int.add_mul, Int.add_mul]; omega
          have e9 : ((f2' environment_state_update y : Int) + 1) * k' ≤ ((f2' environment_state_update y : Int) + 1) * k :=
            Int.mul_le_mul_of_nonneg_left r2 (by omega)
          have e10 := Int.lt_of_mul_lt_mul_right (Int.lt_of_lt_of_le e8 e9) (by omega)
          omega
  have sweep : ∀ {x x1 : Sys α κ W} {ns l l1 : List α}, Sweep id x ns l x1 l1 → (∀ n ∈ ns, n ∈ setAt s.queue p) →
      Moved id (setAt s.queue p) s [] x l →
      (∀ m ∈ l, f environment_state_update m + 1 ≤ f2' environment_state_update m) →
      ∀ m ∈ l1, f environment_state_update m + 1 ≤ f2' environment_state_update m := by
    intro x x1 ns l l1 hs
    induction hs with
    | nil => intro _ _ ih; exact ih
    | cons hc _ ih' =>
      intro hns mx ih
      exact ih' (fun n hn => hns n (by simp [hn])) (mx.trans (hc.moved (hns _ (by simp))))
        (one hc (hns _ (by simp)) mx ih)
  have loop : ∀ {x x1 : Sys α κ W} {l l1 : List α}, Loop id (setAt s.queue p) x l x1 l1 →
      Moved id (setAt s.queue p) s [] x l →
      (∀ m ∈ l, f environment_state_update m + 1 ≤ f2' environment_state_update m) →
      ∀ m ∈ l1, f environment_state_update m + 1 ≤ f2' environment_state_update m := by
    intro x x1 l l1 hs
    induction hs with
    | last hs => intro mx ih; exact sweep hs (fun _ h => h) mx ih
    | more hs _ _ ih' =>
      intro mx ih
      exact ih' (mx.trans (hs.moved fun _ h => h)) (sweep hs (fun _ h => h) mx ih)
  have h4 := loop h (.refl s []) (by simp) m
  have h3 := b2 m
  have := hle m
  by_cases hm : m ∈ e
  · simp only [hm, if_true]; rw [← h3]; exact h4 hm
  · simp only [hm, if_false]; omega

/-- The counter of the run of the second scheduler is not behind. -/
def NotBehind (id : Option κ) (s t : Sys α κ W) : Prop :=
  ∀ f f', Dict.get? s.countsTotal id = some f → Dict.get? t.countsTotal id = some f' →
    ∀ m, f environment_state_update m ≤ f' environment_state_update m

theorem NotBehind.kept (h : NotBehind id s t) (k : Kept id s s') (k' : Kept id t t') : NotBehind id s' t' := by
  intro f f' hf hf'
  rw [k.total] at hf
  rw [k'.total] at hf'
  exact h f f' hf hf'

theorem Pos.constWorld {w0 : World α κ W} (h0 : s0.world = w0) (h : Pos (fun _ => w0) a s0 k o ys py s) :
    s.world = w0 := by
  induction h with
  | start hs => rw [start_world hs, h0]
  | pass _ _ _ ih => exact ih
  | silent _ _ _ hl ih => rw [hl.world]; exact ih
  | shown => rfl
  | over _ _ ih => exact ih
  | passEnd _ _ _ ih => exact ih
  | passEmpty => rfl

theorem Once.of {q : List (List α)} (h : ∀ (i j : Nat) (l l' : List α) n, q[i]? = some l → q[j]? = some l' →
    n ∈ l → n ∈ l' → i = j) : Once q := by
  intro i j n hi hj
  unfold setAt at hi hj
  cases h1 : q[i]? with
  | none => rw [h1] at hi; cases hi
  | some l =>
    cases h2 : q[j]? with
    | none => rw [h2] at hj; cases hj
    | some l' =>
      rw [h1] at hi; rw [h2] at hj
      exact h i j l l' n h1 h2 hi hj

/-- At corresponding positions of two runs. -/
theorem Pos.ahead {w0 : World α κ W} (hid : a'.id = a.id) (h0 : s0.world = w0) (h0' : t0.world = w0)
    (hs : ∀ s1 t1, s0.start a = (s1, .ok false) → t0.start a' = (t1, .ok false) →
      Loosens a.id s1 t1) (k : Nat) :
    (∀ {ys py s ys' py' t}, Pos (fun _ => w0) a s0 k none ys py s → Pos (fun _ => w0) a' t0 k none ys' py' t →
      Abreast a.id s t ∧ NotBehind a.id s t) ∧
    (∀ i {ys py s ys' py' t}, Pos (fun _ => w0) a s0 k (some i) ys py s →
      Pos (fun _ => w0) a' t0 k (some i) ys' py' t → Abreast a.id s t ∧ NotBehind a.id s t) := by
  have inside : ∀ k, (∀ {ys py s ys' py' t}, Pos (fun _ => w0) a s0 k none ys py s →
      Pos (fun _ => w0) a' t0 k none ys' py' t → Abreast a.id s t ∧ NotBehind a.id s t) →
      (∀ i {ys py s ys' py' t}, Pos (fun _ => w0) a s0 k (some i) ys py s →
      Pos (fun _ => w0) a' t0 k (some i) ys' py' t → Abreast a.id s t ∧ NotBehind a.id s t) := by
    intro k hk i
    induction i with
    | zero =>
      intro ys py s ys' py' t h h'
      cases h with
      | @pass _ _ _ st f s h1 h2 h3 =>
        cases h' with
        | @pass _ _ _ st' f' t h1' h2' h3' =>
          obtain ⟨k1, k2⟩ := hk h1 h1'
          refine ⟨k1, fun x x' hx hx' m => ?_⟩
          rw [hid] at h3' hx'
          have e1 : Dict.get? ((s.putStore st).putTotal a.id (resetF .pass f)).countsTotal a.id =
            some (resetF .pass f) := Dict.get?_set_self ..
          have e2 : Dict.get? ((t.putStore st').putTotal a.id (resetF .pass f')).countsTotal a.id =
            some (resetF .pass f') := Dict.get?_set_self ..
          rw [e1] at hx; cases hx
          rw [e2] at hx'; cases hx'
          rw [resetF_gt (by decide), resetF_gt (by decide)]
          exact k2 f f' h3 h3' m
    | succ i ih =>
      intro ys py s ys' py' t h h'
      obtain ⟨ys1, py1, s1, s2, st, e, g1, g2, g3, g4, g5, _, _⟩ := h.moves (X := fun _ => true)
      obtain ⟨ys1', py1', t1, t2, st', e', g1', g2', g3', g4', g5', _, _⟩ := h'.moves (X := fun _ => true)
      obtain ⟨k1, k2⟩ := ih g1 g1'
      have hst : ∃ sa, s0.start a = (sa, .ok false) := by obtain ⟨x, h, _⟩ := g1.conds; exact ⟨x, h⟩
      have hst' : ∃ sa, t0.start a' = (sa, .ok false) := by obtain ⟨x, h, _⟩ := g1'.conds; exact ⟨x, h⟩
      obtain ⟨sa, hsa⟩ := hst
      obtain ⟨ta, hta⟩ := hst'
      have L := hs sa ta hsa hta
      have qa := (Sys.start_ok hsa).queue
      have qt := (Sys.start_ok hta).queue
      have hq := Once.of L.once
      obtain ⟨x1, g, f, u, b1, b2, b3, _, _, b6, b7, b8, b9, b10⟩ := g1.books (qa ▸ hq)
      obtain ⟨x1', g', f', u', b1', b2', b3', _, _, b6', b7', b8', b9', b10'⟩ :=
        g1'.books (by rw [← qt, L.queue]; exact hq)
      rw [hsa] at b1; cases b1
      rw [hta] at b1'; cases b1'
      rw [hid] at g3' g4' g5' b2' b3'
      obtain ⟨y, y', z1, z2, z3⟩ := L.ahead.calls
      rw [b2] at z1; cases z1
      rw [b2'] at z2; cases z2
      have b4 : Books a.id g (s1.putStore st) i f u := b3.keep rfl g2.owner rfl rfl rfl
      have b4' : Books a.id g' (t1.putStore st') i f' u' := b3'.keep rfl g2'.owner rfl rfl rfl
      have hqq : t1.queue = s1.queue := by rw [b6, b6', L.queue]
      have h2 : Abreast a.id (s1.putStore st) (t1.putStore st') := k1
      have h3 : Abreast a.id s2 t2 := by
        obtain ⟨l, l', p1, p2, p3⟩ := h2
        refine ⟨l, l', ?_, ?_, p3⟩
        · rw [Sys.clock_congr g3.moved.clocks]; exact p1
        · rw [Sys.clock_congr g3'.moved.clocks]; exact p2
      refine ⟨h3.advance g5 g5', NotBehind.kept ?_ g4 g4'⟩
      intro y y' hy hy' m
      obtain ⟨v, v1, v2⟩ := g3.moved.total f b4.total
      obtain ⟨v', v1', v2'⟩ := g3'.moved.total f' b4'.total
      rw [v1] at hy; cases hy
      rw [v1'] at hy'; cases hy'
      rw [hqq] at g3'
      have := g3.ahead (s := s1.putStore st) (t := t1.putStore st') (g := g) (g' := g') (p := i)
        (by show Once s1.queue; rw [b6]; exact hq) hqq
        (by show t1.nodes = s1.nodes; rw [b8, b8']; exact L.ahead.nodes)
        (by show t1.world = s1.world; rw [g1.constWorld h0, g1'.constWorld h0']) h2
        (fun m hm => by
          have hm : m ∈ setAt s1.queue i := hm
          rw [b6] at hm
          have : Easier a.id sa ta m := L.conds m (List.mem_flatten.2 ⟨_, setAt_mem hm, hm⟩)
          exact this.keep b9 (g2.owner.trans b10) b6 b9' (g2'.owner.trans b10'))
        z3 b4 b4' (k2 f f' b3.total b3'.total) g3' m
      rw [v2, v2']
      simpa using this
  induction k with
  | zero =>
    have key : ∀ {ys py s ys' py' t}, Pos (fun _ => w0) a s0 0 none ys py s →
        Pos (fun _ => w0) a' t0 0 none ys' py' t → Abreast a.id s t ∧ NotBehind a.id s t := by
      intro ys py s ys' py' t h h'
      cases h with
      | start g =>
        cases h' with
        | start g' =>
          have L := hs _ _ g g'
          refine ⟨L.ahead.clock, fun f f' hf hf' m => ?_⟩
          obtain ⟨y, y', z1, z2, z3⟩ := L.ahead.calls
          rw [hf] at z1; cases z1
          rw [hf'] at z2; cases z2
          exact z3 _ _ (by decide)
    exact ⟨key, inside 0 key⟩
  | succ k ih =>
    have key : ∀ {ys py s ys' py' t}, Pos (fun _ => w0) a s0 (k + 1) none ys py s →
        Pos (fun _ => w0) a' t0 (k + 1) none ys' py' t → Abreast a.id s t ∧ NotBehind a.id s t := by
      intro ys py s ys' py' t h h'
      obtain ⟨i, ys1, py1, s1, g1, g2, g3, g4, _, _⟩ := h.ends (X := fun _ => true)
      obtain ⟨i', ys1', py1', t1, g1', g2', g3', g4', _, _⟩ := h'.ends (X := fun _ => true)
      have p1 := (g1.pad g2 i').1
      have p2 := (g1'.pad g2' i).1
      rw [Nat.add_comm i' i] at p2
      obtain ⟨k1, k2⟩ := ih.2 _ p1 p2
      rw [hid] at g3' g4'
      exact ⟨k1.advance g4 g4', k2.kept g3 g3'⟩
    exact ⟨key, inside (k + 1) key⟩

end GS
