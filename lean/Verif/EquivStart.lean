import Verif.Equiv
/-!
# Lemmas: the beginning of runs that differ in interchangeable conditions
-/

set_option linter.unusedSectionVars false

namespace GS
open Spec
variable {α κ W : Type _} [DecidableEq α] [DecidableEq κ]
variable {b b' : Store α κ} {a a' : RunArgs α κ W} {abs : Bool} {s s' t t' : Sys α κ W}

/-! ## The same condition in two stores -/

/-- A condition can replace itself where its objects have the same owners. -/
theorem interchangeable_self {c : Cond α κ W}
    (h : ∀ o, Occurs o c → o < b.fresh ∧ o < b'.fresh ∧ b'.owner o = b.owner o) :
    Interchangeable b b' c c := by
  refine ⟨?_, rfl, fun _ _ => Iff.rfl, fun _ _ => Iff.rfl⟩
  intro v id st st' h1 h2 h3
  have hs : SameOn (fun o => Occurs o c) st st' := by
    intro o ho
    obtain ⟨k1, k2, k3⟩ := h o ho
    exact ⟨by rw [h2.2 o k2, h1.2 o k1, k3], fun i => by rw [h3]⟩
  obtain ⟨e1, e2⟩ := eval_sameOn v id (fun o => Occurs o c) c st st' (fun _ ho => ho) hs
  refine ⟨e1, ?_⟩
  funext o i
  by_cases ho : Occurs o c
  · exact (e2 o ho).2 i
  · have g1 := eval_outside v id (fun o => ¬ Occurs o c) c st (fun _ h k => k h)
    have g2 := eval_outside v id (fun o => ¬ Occurs o c) c st' (fun _ h k => k h)
    rw [(g1 o ho).2 i, (g2 o ho).2 i, h3]

mutual
theorem setOwner_sameOn (v : Option α) (P : Nat → Prop) :
    ∀ (c : Cond α κ W) (st st' : Store α κ), (∀ o, Occurs o c → P o) → SameOn P st st' →
    SameOn P (setOwner v c st) (setOwner v c st')
  | .leaf x k, st, st', hp, h => putOwner_sameOn v P x h
  | .whileNot x f, st, st', hp, h => putOwner_sameOn v P x h
  | .all x args, st, st', hp, h =>
    setOwners_sameOn v P args _ _ (fun o ho => hp o (.inr ho)) (putOwner_sameOn v P x h)
  | .any x args, st, st', hp, h =>
    setOwners_sameOn v P args _ _ (fun o ho => hp o (.inr ho)) (putOwner_sameOn v P x h)
  | .not x c, st, st', hp, h =>
    setOwner_sameOn v P c _ _ (fun o ho => hp o (.inr ho)) (putOwner_sameOn v P x h)
  | .nwhen x c n, st, st', hp, h =>
    setOwner_sameOn v P c _ _ (fun o ho => hp o (.inr ho)) (putOwner_sameOn v P x h)
theorem setOwners_sameOn (v : Option α) (P : Nat → Prop) :
    ∀ (cs : List (Cond α κ W)) (st st' : Store α κ), (∀ o, OccursAny o cs → P o) →
    SameOn P st st' → SameOn P (setOwners v cs st) (setOwners v cs st')
  | [], st, st', _, h => h
  | c :: cs, st, st', hp, h => by
    have ho : Occurs c.oid c := by
      cases c <;> first | exact rfl | exact .inl rfl
    have e : st'.owner c.oid = st.owner c.oid := (h _ (hp _ (.inl ho))).1
    simp only [setOwners]
    rw [e]
    cases st.owner c.oid with
    | none =>
      exact setOwners_sameOn v P cs _ _ (fun o ho => hp o (.inr ho))
        (setOwner_sameOn v P c _ _ (fun o ho => hp o (.inl ho)) h)
    | some _ => exact setOwners_sameOn v P cs _ _ (fun o ho => hp o (.inr ho)) h
theorem putOwner_sameOn (v : Option α) (P : Nat → Prop) (x : Nat) {st st' : Store α κ}
    (h : SameOn P st st') : SameOn P (st.putOwner x v) (st'.putOwner x v) := by
  intro o ho
  refine ⟨?_, fun i => (h o ho).2 i⟩
  simp only [Store.putOwner]
  split
  · rfl
  · exact (h o ho).1
end

/-! ## Implicit conditions -/

theorem defaultLeaves_occurs : ∀ (ds : List α) (k o : Nat),
    OccursAny o (defaultLeaves k ds : List (Cond α κ W)) → k ≤ o ∧ o < k + ds.length
  | [], _, _, h => h.elim
  | d :: ds, k, o, h => by
    rcases h with h | h
    · have h : o = k := h
      simp only [List.length_cons]; omega
    · have := defaultLeaves_occurs ds (k + 1) o h
      simp only [List.length_cons]; omega

theorem defaultCond_occurs (k : Nat) : ∀ (ds : List α) (o : Nat),
    Occurs o (Sys.defaultCond k ds : Cond α κ W) → k ≤ o ∧ o < k + (ds.length + 1)
  | [], o, h => by have h : o = k := h; simp only [List.length_nil]; omega
  | [d], o, h => by have h : o = k := h; simp only [List.length_cons, List.length_nil]; omega
  | d :: d' :: ds, o, h => by
    have e : (Sys.defaultCond k (d :: d' :: ds) : Cond α κ W) =
        .all k (defaultLeaves (k + 1) (d :: d' :: ds)) := by
      simp only [Sys.defaultCond]; rw [defaultLeaves_eq, Nat.add_zero]
    rw [e] at h
    rcases h with h | h
    · omega
    · have := defaultLeaves_occurs _ _ _ h
      omega

/-- While implicit conditions are made explicit. -/
structure Prep (b b' : Store α κ) (s s' : Sys α κ W) : Prop where
  eq : s' = s.recond s'.conds s'.store
  fresh : s'.store.fresh = s.store.fresh
  sat : s'.store.sat = s.store.sat
  kept : OwnersKept b s.store
  kept' : OwnersKept b' s'.store
  new : ∀ o, b.fresh ≤ o → o < s.store.fresh → s'.store.owner o = s.store.owner o
  conds : Pairwise2 (fun c c' => Interchangeable b b' c c' ∨
    (c' = c ∧ ∀ o, Occurs o c → b.fresh ≤ o ∧ o < s.store.fresh)) s.conds s'.conds

theorem Prep.add (h : Prep b b' s s') (hb : b'.fresh = b.fresh) (n : α) (deps : List α) :
    Prep b b' ((s.alloc (deps.length + 1)).addBasic n (Sys.defaultCond s.store.fresh deps))
      ((s'.alloc (deps.length + 1)).addBasic n (Sys.defaultCond s'.store.fresh deps)) := by
  have hx := defaultCond_occurs (κ := κ) (W := W) s.store.fresh deps
  rw [h.fresh]
  generalize hc : (Sys.defaultCond s.store.fresh deps : Cond α κ W) = c at hx ⊢
  have r1 := setOwner_rest (some n) c (s.alloc (deps.length + 1)).store
  have r2 := setOwner_rest (some n) c (s'.alloc (deps.length + 1)).store
  have o1 := setOwner_outside (some n) (fun o => o < s.store.fresh) c
    (s.alloc (deps.length + 1)).store (fun o ho k => absurd k (Nat.not_lt.mpr (hx o ho).1))
  have o2 := setOwner_outside (some n) (fun o => o < s.store.fresh) c
    (s'.alloc (deps.length + 1)).store (fun o ho k => absurd k (Nat.not_lt.mpr (hx o ho).1))
  have f1 : (s.alloc (deps.length + 1)).store.fresh = s.store.fresh + (deps.length + 1) := rfl
  have f2 : (s'.alloc (deps.length + 1)).store.fresh = s.store.fresh + (deps.length + 1) := by
    show s'.store.fresh + _ = _; rw [h.fresh]
  have w1 : ∀ o, o < s.store.fresh → (s.alloc (deps.length + 1)).store.owner o = s.store.owner o := by
    intro o ho; show (if _ then _ else _) = _; rw [if_neg (by omega)]
  have w2 : ∀ o, o < s.store.fresh → (s'.alloc (deps.length + 1)).store.owner o = s'.store.owner o := by
    intro o ho; show (if _ then _ else _) = _; rw [h.fresh, if_neg (by omega)]
  have hs : (s'.alloc (deps.length + 1)).store.sat = (s.alloc (deps.length + 1)).store.sat := by
    funext o i
    show (if s'.store.fresh ≤ o then 0 else s'.store.sat o i) = if s.store.fresh ≤ o then 0 else s.store.sat o i
    rw [h.fresh, h.sat]
  have same : SameOn (fun o => b.fresh ≤ o) (s.alloc (deps.length + 1)).store
      (s'.alloc (deps.length + 1)).store := by
    intro o ho
    refine ⟨?_, fun i => by rw [hs]⟩
    by_cases k : o < s.store.fresh
    · rw [w1 o k, w2 o k]; exact h.new o ho k
    · show (if s'.store.fresh ≤ o then none else s'.store.owner o) =
        if s.store.fresh ≤ o then none else s.store.owner o
      rw [h.fresh, if_pos (by omega), if_pos (by omega)]
  have same' := setOwner_sameOn (some n) (fun o => b.fresh ≤ o) c _ _
    (fun o ho => Nat.le_trans h.kept.1 (hx o ho).1) same
  refine ⟨?_, ?_, ?_, ?_, ?_, ?_, ?_⟩
  · conv => lhs; rw [h.eq]
    rfl
  · show (setOwner _ c _).fresh = (setOwner _ c _).fresh
    rw [r1.2, r2.2, f1, f2]
  · show (setOwner _ c _).sat = (setOwner _ c _).sat
    rw [r1.1, r2.1, hs]
  · refine ⟨?_, fun o ho => ?_⟩
    · show b.fresh ≤ (setOwner _ c _).fresh
      rw [r1.2, f1]; have := h.kept.1; omega
    · have ho' : o < s.store.fresh := Nat.lt_of_lt_of_le ho h.kept.1
      show (setOwner _ c _).owner o = _
      rw [(o1 o ho').1, w1 o ho', h.kept.2 o ho]
  · refine ⟨?_, fun o ho => ?_⟩
    · show b'.fresh ≤ (setOwner _ c _).fresh
      rw [r2.2, f2]; have := h.kept.1; omega
    · have ho' : o < s.store.fresh := by have := h.kept.1; omega
      show (setOwner _ c _).owner o = _
      rw [(o2 o ho').1, w2 o ho', h.kept'.2 o ho]
  · intro o ho _
    exact (same' o ho).1
  · have hfr : s.store.fresh ≤ ((s.alloc (deps.length + 1)).addBasic n c).store.fresh := by
      show _ ≤ (setOwner _ c _).fresh
      rw [r1.2, f1]; omega
    refine (h.conds.imp ?_).set n (.inr ⟨rfl, fun o ho => ⟨Nat.le_trans h.kept.1 (hx o ho).1, ?_⟩⟩)
    · rintro x y (k | ⟨k1, k2⟩)
      · exact .inl k
      · exact .inr ⟨k1, fun o ho => ⟨(k2 o ho).1, Nat.lt_of_lt_of_le (k2 o ho).2 hfr⟩⟩
    · show o < (setOwner _ c _).fresh
      rw [r1.2, f1]; exact (hx o ho).2

theorem Prep.validateConditions (hb : b'.fresh = b.fresh) : ∀ (ns : List α) {s s' : Sys α κ W},
    Prep b b' s s' →
    (Sys.validateConditions ns s').2 = (Sys.validateConditions ns s).2 ∧
      Prep b b' (Sys.validateConditions ns s).1 (Sys.validateConditions ns s').1
  | [], s, s', h => ⟨rfl, h⟩
  | n :: ns, s, s', h => by
    have hg : s'.graph = s.graph := by rw [h.eq]; rfl
    simp only [Sys.validateConditions]
    rw [hg]
    rcases h.conds.get n with ⟨h1, h2⟩ | ⟨c, c', h1, h2, _⟩
    · rw [h1, h2]
      dsimp only
      cases Dict.get? s.graph n with
      | none => exact ⟨rfl, h⟩
      | some deps => exact Prep.validateConditions hb ns (h.add hb n deps)
    · rw [h1, h2]
      exact Prep.validateConditions hb ns h

theorem Prep.twin (h : Prep b b' s s') : Twin s.store s'.store s s' := by
  refine ⟨h.eq, h.fresh, h.sat, .refl _, .refl _, h.conds.imp ?_⟩
  rintro c c' (k | ⟨rfl, k⟩)
  · exact k.later h.kept h.kept'
  · exact interchangeable_self fun o ho =>
      ⟨(k o ho).2, by rw [h.fresh]; exact (k o ho).2, h.new o (k o ho).1 (k o ho).2⟩

theorem Spec.Rewritten.prep (h : Rewritten s s' a a') : Prep s.store s'.store s s' := by
  refine ⟨?_, h.fresh, h.sat, .refl _, .refl _, fun o h1 h2 => absurd h2 (Nat.not_lt.mpr h1),
    h.conds.imp fun _ _ k => .inl k⟩
  have h1 := h.view
  have h2 := h.defaultUnit
  cases s; cases s'
  simp only at h1 h2
  subst h1; subst h2; rfl

/-! ## Absolute time -/

theorem int_unit_cases {i j : Int} (h : i * j = 1) : i = 1 ∨ i = -1 := by
  have hd : i.natAbs ∣ 1 := by
    have : i ∣ 1 := ⟨j, h.symm⟩
    exact Int.natAbs_dvd_natAbs.mpr this
  have := Nat.dvd_one.mp hd
  omega

theorem multiple_antisymm {x y : Rat} (hx : 0 ≤ x) (hy : 0 ≤ y) (h : Multiple x y)
    (k : Multiple y x) : x = y := by
  obtain ⟨i, hi⟩ := h
  obtain ⟨j, hj⟩ := k
  by_cases hy0 : y = 0
  · rw [hi, hy0]; grind
  · have hij : ((i * j : Int) : Rat) = 1 := by
      rw [Rat.intCast_mul]
      have : y = (i : Rat) * j * y := by rw [hi] at hj; grind
      grind
    have hij : i * j = 1 := by exact_mod_cast hij
    have hypos : 0 < y := by grind
    rcases int_unit_cases hij with rfl | rfl
    · rw [hi]; grind
    · grind

theorem isGcd_unique {P Q : Qty → Prop} {g g' : Rat} (h : IsGcd P g) (h' : IsGcd Q g')
    (hp : ∀ q, P q → ∃ q', Q q' ∧ q'.val = q.val) (hq : ∀ q, Q q → ∃ q', P q' ∧ q'.val = q.val) :
    g' = g := by
  refine multiple_antisymm h'.1 h.1 (h'.2.2 g ?_ |> fun k => k) (h.2.2 g' ?_)
  · intro q k
    obtain ⟨q', k1, k2⟩ := hq q k
    rw [← k2]; exact h.2.1 q' k1
  · intro q k
    obtain ⟨q', k1, k2⟩ := hp q k
    rw [← k2]; exact h'.2.1 q' k1

theorem Spec.SameDurations.refl (l : List Qty) : SameDurations l l := fun _ => Iff.rfl

theorem Spec.SameDurations.get {l l' : List Qty} (h : SameDurations l l') {q : Qty} (hq : q ∈ l) :
    ∃ q' ∈ l', q'.val = q.val := by
  obtain ⟨q', k1, k2⟩ := List.mem_map.mp ((h q.val).mpr (List.mem_map.mpr ⟨q, hq, rfl⟩))
  exact ⟨q', k1, k2⟩

theorem Spec.SameDurations.symm {l l' : List Qty} (h : SameDurations l l') : SameDurations l' l :=
  fun x => (h x).symm

theorem Spec.SameDurations.nil {l l' : List Qty} (h : SameDurations l l') : l' = [] ↔ l = [] := by
  constructor
  · rintro rfl
    cases l with
    | nil => rfl
    | cons q l => exact absurd ((h q.val).mpr (by simp)) (by simp)
  · rintro rfl
    cases l' with
    | nil => rfl
    | cons q l => exact absurd ((h q.val).mp (by simp)) (by simp)

theorem Spec.SameDurations.append {l l' k k' : List Qty} (h : SameDurations l l')
    (g : SameDurations k k') : SameDurations (l ++ k) (l' ++ k') := by
  intro x
  rw [List.map_append, List.map_append, List.mem_append, List.mem_append, h x, g x]

theorem gcdIn_vals {qs qs' : List Qty} (h : SameDurations qs qs') :
    (Sys.gcdIn (Sys.minExp qs') qs' : Rat) * (10 : Rat) ^ Sys.minExp qs' =
      (Sys.gcdIn (Sys.minExp qs) qs : Rat) * (10 : Rat) ^ Sys.minExp qs :=
  isGcd_unique (gcdIn_isGcd (Sys.minExp qs) qs (minExp_le qs))
    (gcdIn_isGcd (Sys.minExp qs') qs' (minExp_le qs')) (fun _ hq => h.get hq)
    (fun _ hq => h.symm.get hq)

/-- Lists of absolute conditions that ask for the same times. -/
abbrev SameTimes (cs cs' : List (Cond α κ W)) : Prop :=
  Listwise (fun c c' => SameDurations c.intervals c'.intervals ∧
    SameDurations c.fixedPoints c'.fixedPoints) cs cs'

theorem sameTimes_filter {cs cs' : List (Cond α κ W)} (h : Listwise (Interchangeable b b') cs cs') :
    SameTimes (cs.filter Cond.isAbsolute) (cs'.filter Cond.isAbsolute) := by
  induction h with
  | nil => exact .nil
  | @cons c c' l l' h _ ih =>
    have e := h.absolute
    by_cases hc : c.isAbsolute = true
    · rw [List.filter_cons_of_pos hc, List.filter_cons_of_pos (by rw [e]; exact hc)]
      exact .cons ⟨h.intervals hc, h.points hc⟩ ih
    · rw [List.filter_cons_of_neg hc, List.filter_cons_of_neg (by rw [e]; exact hc)]
      exact ih

theorem SameTimes.flat {cs cs' : List (Cond α κ W)} (h : SameTimes cs cs') (m : Bool) :
    SameDurations (cs.flatMap fun c => c.intervals ++ (if m then c.fixedPoints else []))
      (cs'.flatMap fun c => c.intervals ++ (if m then c.fixedPoints else [])) := by
  induction h with
  | nil => exact .refl _
  | cons h _ ih =>
    simp only [List.flatMap_cons]
    refine (h.1.append ?_).append ih
    cases m
    · exact .refl _
    · exact h.2

theorem SameTimes.unit {cs cs' : List (Cond α κ W)} (h : SameTimes cs cs') (s : Sys α κ W) :
    s.absoluteUnit cs' = s.absoluteUnit cs := by
  have hf := SameTimes.flat h (decide (s.mode = Mode.exactTime))
  simp only [decide_eq_true_eq] at hf
  unfold Sys.absoluteUnit
  dsimp only
  generalize (cs.flatMap fun c => c.intervals ++
    (if s.mode = Mode.exactTime then c.fixedPoints else [])) = qs at hf ⊢
  generalize (cs'.flatMap fun c => c.intervals ++
    (if s.mode = Mode.exactTime then c.fixedPoints else [])) = qs' at hf ⊢
  by_cases hq : qs = []
  · rw [if_pos hq, if_pos (hf.nil.mpr hq)]
  · rw [if_neg hq, if_neg (fun k => hq (hf.nil.mp k))]
    have hg := gcdIn_vals hf
    have hk : ∀ x : Rat, (Sys.gcdIn (Sys.minExp qs') qs' : Rat) / x * (10 : Rat) ^ Sys.minExp qs' =
        (Sys.gcdIn (Sys.minExp qs) qs : Rat) / x * (10 : Rat) ^ Sys.minExp qs := by
      intro x; grind
    simp only [hk]

/-- The smallest of a list. -/
theorem foldl_min (qs : List Qty) : ∀ z : Rat,
    (qs.foldl (fun m x => min m x.val) z = z ∨
      ∃ q ∈ qs, qs.foldl (fun m x => min m x.val) z = q.val) ∧
    qs.foldl (fun m x => min m x.val) z ≤ z ∧
    ∀ q ∈ qs, qs.foldl (fun m x => min m x.val) z ≤ q.val := by
  induction qs with
  | nil => intro z; exact ⟨.inl rfl, Rat.le_refl, by simp⟩
  | cons q qs ih =>
    intro z
    rw [List.foldl_cons]
    obtain ⟨h1, h2, h3⟩ := ih (min z q.val)
    have m1 : min z q.val = z ∨ min z q.val = q.val := by
      show (if z ≤ q.val then z else q.val) = z ∨ (if z ≤ q.val then z else q.val) = q.val
      split <;> simp
    have m2 : min z q.val ≤ z ∧ min z q.val ≤ q.val := by
      show (if z ≤ q.val then z else q.val) ≤ z ∧ (if z ≤ q.val then z else q.val) ≤ q.val
      split <;> grind
    refine ⟨?_, Rat.le_trans h2 m2.1, ?_⟩
    · rcases h1 with h1 | ⟨p, hp, h1⟩
      · rw [h1]
        rcases m1 with m1 | m1
        · exact .inl m1
        · exact .inr ⟨q, by simp, m1⟩
      · exact .inr ⟨p, by simp [hp], h1⟩
    · intro p hp
      rcases List.mem_cons.mp hp with rfl | hp
      · exact Rat.le_trans h2 m2.2
      · exact h3 p hp

theorem firstPoint_spec (c : Cond α κ W) (h : c.fixedPoints ≠ []) :
    (∃ q ∈ c.fixedPoints, Sys.firstPoint c = q.val) ∧
    ∀ q ∈ c.fixedPoints, Sys.firstPoint c ≤ q.val := by
  unfold Sys.firstPoint
  cases hc : c.fixedPoints with
  | nil => exact absurd hc h
  | cons q qs =>
    dsimp only
    obtain ⟨h1, h2, h3⟩ := foldl_min qs q.val
    refine ⟨?_, ?_⟩
    · rcases h1 with h1 | ⟨p, hp, h1⟩
      · exact ⟨q, by simp, h1⟩
      · exact ⟨p, by simp [hp], h1⟩
    · intro p hp
      rcases List.mem_cons.mp hp with rfl | hp
      · exact h2
      · exact h3 p hp

theorem firstPoint_same {c c' : Cond α κ W} (h : SameDurations c.fixedPoints c'.fixedPoints) :
    Sys.firstPoint c' = Sys.firstPoint c := by
  by_cases hc : c.fixedPoints = []
  · have hc' := h.nil.mpr hc
    unfold Sys.firstPoint
    rw [hc, hc']
  · obtain ⟨⟨q, h1, h2⟩, h3⟩ := firstPoint_spec c hc
    obtain ⟨⟨q', h1', h2'⟩, h3'⟩ := firstPoint_spec c' (fun k => hc (h.nil.mp k))
    obtain ⟨p, k1, k2⟩ := h.get h1
    obtain ⟨p', k1', k2'⟩ := h.symm.get h1'
    have g1 := h3' p k1
    have g2 := h3 p' k1'
    grind

theorem SameTimes.foldl {cs cs' : List (Cond α κ W)} (h : SameTimes cs cs') : ∀ z : Rat,
    cs'.foldl (fun m x => min m (Sys.firstPoint x)) z =
      cs.foldl (fun m x => min m (Sys.firstPoint x)) z := by
  induction h with
  | nil => intro z; rfl
  | cons h _ ih => intro z; rw [List.foldl_cons, List.foldl_cons, firstPoint_same h.2]; exact ih _

theorem SameTimes.advance {cs cs' : List (Cond α κ W)} (h : SameTimes cs cs') (z : Rat) :
    Sys.advanceTo z cs' = Sys.advanceTo z cs := by
  cases h with
  | nil => rfl
  | cons h k =>
    unfold Sys.advanceTo
    dsimp only
    rw [SameTimes.foldl k, firstPoint_same h.2]

theorem Twin.setupAbsolute (h : Twin b b' s s') (ha : TwinArgs b b' a a') :
    Twins b b' (s.setupAbsolute a) (s'.setupAbsolute a') := by
  have hl : SameTimes (s.absoluteConds a) (s'.absoluteConds a') := by
    unfold Sys.absoluteConds
    exact sameTimes_filter (h.conds.values.append (.cons ha.seq (.cons ha.esu ha.others)))
  have hn : s'.absoluteConds a' = [] ↔ s.absoluteConds a = [] := by
    generalize s'.absoluteConds a' = y at hl ⊢
    generalize s.absoluteConds a = x at hl ⊢
    cases hl <;> simp
  have hc : s'.clock a.id = s.clock a.id := by
    show s'.toView.clock _ = _; rw [h.view]
  have hu : ∀ cs, s'.absoluteUnit cs = s.absoluteUnit cs := by
    intro cs; rw [h.eq]; rfl
  have hset : ∀ c, Twin b b' (s.setClock a.id c) (s'.setClock a.id c) := by
    intro c
    have e : s'.setClock a.id c = (s.setClock a.id c).recond s'.conds s'.store := by
      conv => lhs; rw [h.eq]
      rfl
    rw [e]; exact h.change rfl rfl
  unfold Sys.setupAbsolute
  dsimp only
  rw [ha.id, hc, hu, SameTimes.unit hl, SameTimes.advance hl]
  by_cases k : s.absoluteConds a = []
  · rw [if_pos k, if_pos (hn.mpr k)]
    exact ⟨rfl, hset _⟩
  · rw [if_neg k, if_neg (fun x => k (hn.mp x))]
    cases s.absoluteUnit (s.absoluteConds a) with
    | error e => exact ⟨rfl, h⟩
    | ok u => exact ⟨rfl, hset _⟩

theorem Twin.getClock (h : Twin b b' s s') (id : Option κ) :
    Twin b b' (s.getClock id) (s'.getClock id) := by
  have e1 := Sys.getClock_recond s'.conds s'.store s id
  rw [← h.eq] at e1
  rw [e1]
  refine h.change ?_ ?_ <;> (unfold Sys.getClock; cases Dict.get? s.clocks id <;> rfl)

theorem Sys.initCounts_conds (s : Sys α κ W) (id base) :
    (s.initCounts id base).1.conds = s.conds ∧ (s.initCounts id base).1.store = s.store := by
  have t1 : ∀ s t : Sys α κ W, s.initTotal id base = .ok t → t.conds = s.conds ∧ t.store = s.store := by
    intro s t h; unfold Sys.initTotal at h
    repeat' split at h
    all_goals first | (cases h; exact ⟨rfl, rfl⟩) | cases h
  have t2 : ∀ s t : Sys α κ W, s.initUseable id base = .ok t → t.conds = s.conds ∧ t.store = s.store := by
    intro s t h; unfold Sys.initUseable at h
    repeat' split at h
    all_goals first | (cases h; exact ⟨rfl, rfl⟩) | cases h
  have t3 : ∀ s t : Sys α κ W, s.initList id base = .ok t → t.conds = s.conds ∧ t.store = s.store := by
    intro s t h; unfold Sys.initList at h
    repeat' split at h
    all_goals first | (cases h; exact ⟨rfl, rfl⟩) | cases h
  have t4 : ∀ s t : Sys α κ W, s.initClock id base = .ok t → t.conds = s.conds ∧ t.store = s.store := by
    intro s t h; unfold Sys.initClock at h
    repeat' split at h
    all_goals first | (cases h; exact ⟨rfl, rfl⟩) | cases h
  unfold Sys.initCounts
  cases h1 : s.initTotal id base with
  | error e => exact ⟨rfl, rfl⟩
  | ok s1 =>
    obtain ⟨k1, k2⟩ := t1 _ _ h1
    dsimp only
    cases h2 : s1.initUseable id base with
    | error e => exact ⟨k1, k2⟩
    | ok s2 =>
      obtain ⟨k3, k4⟩ := t2 _ _ h2
      dsimp only
      cases h3 : s2.initList id base with
      | error e => exact ⟨k3.trans k1, k4.trans k2⟩
      | ok s3 =>
        obtain ⟨k5, k6⟩ := t3 _ _ h3
        dsimp only
        cases h4 : s3.initClock id base with
        | error e => exact ⟨k5.trans (k3.trans k1), k6.trans (k4.trans k2)⟩
        | ok s4 =>
          obtain ⟨k7, k8⟩ := t4 _ _ h4
          exact ⟨k7.trans (k5.trans (k3.trans k1)), k8.trans (k6.trans (k4.trans k2))⟩

theorem Twin.initCounts (h : Twin b b' s s') (id base) :
    Twins b b' (s.initCounts id base) (s'.initCounts id base) := by
  have e1 := Sys.initCounts_recond s'.conds s'.store s id base
  rw [← h.eq] at e1
  rw [e1]
  exact ⟨rfl, h.change (Sys.initCounts_conds s id base).1 (Sys.initCounts_conds s id base).2⟩

/-- The beginnings of the two runs correspond. -/
theorem Spec.Rewritten.start (h : Rewritten s s' a a') :
    (s'.start a').2 = (s.start a).2 ∧
    ∃ b b', Twin b b' (s.start a).1 (s'.start a').1 ∧ TwinArgs b b' a a' := by
  have hp := h.prep
  have ht0 : Twin s.store s'.store s s' := hp.twin
  have ha0 : TwinArgs s.store s'.store a a' :=
    ⟨h.id, h.base, h.skip, h.esu, h.seq, h.others⟩
  have hg : s'.graph = s.graph := congrArg View.graph h.view
  have hn : s'.nodes = s.nodes := congrArg View.nodes h.view
  unfold Sys.start Sys.validateRunState
  rw [hg, hn]
  cases toposort s.graph with
  | error e => exact ⟨rfl, _, _, ht0, ha0⟩
  | ok _ =>
    dsimp only
    obtain ⟨k1, k2⟩ := Prep.validateConditions h.fresh s.nodes hp
    rcases e : Sys.validateConditions s.nodes s with ⟨s1, r⟩
    rcases e' : Sys.validateConditions s.nodes s' with ⟨s1', r'⟩
    rw [e, e'] at k1 k2
    dsimp only at k1 k2
    subst k1
    have ht := k2.twin
    have ha : TwinArgs s1.store s1'.store a a' :=
      ⟨h.id, h.base, h.skip, h.esu.later k2.kept k2.kept', h.seq.later k2.kept k2.kept',
        h.others.imp fun _ _ x => x.later k2.kept k2.kept'⟩
    generalize s1.store = b at ht ha
    generalize s1'.store = b' at ht ha
    rcases r' with _ | er
    · dsimp only
      have k3 := (ht.getClock a.id).setupAbsolute ha
      rw [h.id]
      rcases f : (s1.getClock a.id).setupAbsolute a with ⟨s2, q⟩
      rcases f' : (s1'.getClock a.id).setupAbsolute a' with ⟨s2', q'⟩
      rw [f, f'] at k3
      obtain ⟨k3, k4⟩ := k3
      dsimp only at k3 k4
      subst k3
      rcases q' with er | ab
      · exact ⟨rfl, b, b', k4, ha⟩
      · dsimp only
        rw [h.base]
        have k5 := k4.initCounts a.id a.base
        rcases g : s2.initCounts a.id a.base with ⟨s3, p⟩
        rcases g' : s2'.initCounts a.id a.base with ⟨s3', p'⟩
        rw [g, g'] at k5
        obtain ⟨k5, k6⟩ := k5
        dsimp only at k5 k6
        subst k5
        rcases p' with _ | er
        · dsimp only
          have e2 : s3'.resetUseable a.id = (s3.resetUseable a.id).recond s3'.conds s3'.store := by
            conv => lhs; rw [k6.eq]
            rfl
          have k7 : Twin b b' (s3.resetUseable a.id) (s3'.resetUseable a.id) := by
            rw [e2]; exact k6.change rfl rfl
          have k8 := k7.resetTotal a.id .environment_state_update
          rcases m : (s3.resetUseable a.id).resetTotal .environment_state_update a.id with x | u <;>
            rcases m' : (s3'.resetUseable a.id).resetTotal .environment_state_update a.id with x' | u' <;>
            rw [m, m'] at k8
          · cases k8; exact ⟨rfl, b, b', k7, ha⟩
          · exact k8.elim
          · exact k8.elim
          · exact ⟨rfl, b, b', k8, ha⟩
        · exact ⟨rfl, b, b', k6, ha⟩
    · exact ⟨rfl, b, b', ht, ha⟩

end GS
