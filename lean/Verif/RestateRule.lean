import Verif.Restate
import Verif.RunWhole
/-!
# Conditions written down differently hold at the same time
-/

set_option linter.unusedSectionVars false

namespace GS
open Spec
variable {α κ W : Type _} [DecidableEq α] [DecidableEq κ]

/-! ## Counting -/

theorem count_le_of_subset {X Y : List α} (hX : X.Nodup) (hY : Y.Nodup) (h : ∀ x ∈ X, x ∈ Y) (d : α) :
    X.count d ≤ Y.count d := by
  rw [hX.count, hY.count]
  by_cases hd : d ∈ X
  · simp [hd, h d hd]
  · simp [hd]

theorem since_append_not_mem {n : α} : ∀ (x l : List α), n ∉ x → since n (l ++ x) = since n l ++ x := by
  intro x
  induction x with
  | nil => intro l _; simp
  | cons y x ih =>
    intro l hn
    have h1 : n ∉ x := fun h => hn (by simp [h])
    have h2 : y ≠ n := fun h => hn (by simp [h])
    have e : l ++ y :: x = (l ++ [y]) ++ x := by simp
    rw [e, ih _ h1, since_snoc, if_neg h2]
    simp

theorem since_suffix_part {n : α} : ∀ (x l : List α), n ∈ x → ∀ d ∈ since n (l ++ x), d ∈ x := by
  intro x
  induction x with
  | nil => intro l h; simp at h
  | cons y x ih =>
    intro l hn d hd
    have e : l ++ y :: x = (l ++ [y]) ++ x := by simp
    rw [e] at hd
    by_cases hx : n ∈ x
    · exact List.mem_cons_of_mem _ (ih _ hx d hd)
    · rw [since_append_not_mem _ _ hx] at hd
      have hy : y = n := by
        rcases List.mem_cons.1 hn with h | h
        · exact h.symm
        · exact absurd h hx
      rw [since_snoc, if_pos hy] at hd
      simp at hd
      exact List.mem_cons_of_mem _ hd

/-- What is counted since a node last ran does not depend on the order inside sets, if the two
are never in the same set. -/
theorem since_perm {n d : α} (hd : d ≠ n) {xs ys : List (List α)} (h : Perms xs ys) :
    (∀ x ∈ xs, ¬ (n ∈ x ∧ d ∈ x)) → ∀ l l' : List α,
      (since n l).count d = (since n l').count d →
      (since n (l ++ xs.flatten)).count d = (since n (l' ++ ys.flatten)).count d := by
  induction h with
  | nil => intro _ l l' h; simpa using h
  | @cons x y xs ys hxy _ ih =>
    intro hx l l' hl
    have e1 : l ++ (x :: xs).flatten = (l ++ x) ++ xs.flatten := by simp
    have e2 : l' ++ (y :: ys).flatten = (l' ++ y) ++ ys.flatten := by simp
    rw [e1, e2]
    refine ih (fun z hz => hx z (by simp [hz])) _ _ ?_
    have hxx := hx x (by simp)
    by_cases hn : n ∈ x
    · have hdx : d ∉ x := fun h => hxx ⟨hn, h⟩
      have k1 : d ∉ since n (l ++ x) := fun h => hdx (since_suffix_part _ _ hn d h)
      have k2 : d ∉ since n (l' ++ y) := fun h =>
        hdx (hxy.mem_iff.2 (since_suffix_part _ _ (hxy.mem_iff.1 hn) d h))
      rw [List.count_eq_zero_of_not_mem k1, List.count_eq_zero_of_not_mem k2]
    · rw [since_append_not_mem _ _ hn, since_append_not_mem _ _ (fun h => hn (hxy.mem_iff.2 h)),
        List.count_append, List.count_append, hl, hxy.count_eq]

/-! ## What conditions see -/

/-- The same surroundings. -/
structure AroundLike (q : List (List α)) (e e' : Around α κ W) : Prop where
  nodes : SameMembers e.nodes e'.nodes
  place : ∀ n ∈ q.flatten, e'.place n = e.place n
  exact : e'.exact = e.exact
  finished : ∀ ys ys', Perms ys ys' → e'.finished ys' = e.finished ys
  number : ∀ ys ys', Perms ys ys' → e'.number ys' = e.number ys
  asks : ∀ ys ys' f, Perms ys ys' → OfWorld f → e'.asks ys' f = e.asks ys f
  time : ∀ ys ys', Perms ys ys' → e'.time ys' = e.time ys
  tick : e'.tick = e.tick

/-- Everything that conditions see is the same, except that more nodes of `A` may have been
chosen. -/
structure SeesMore (A : α → Prop) (own : Option α) (e e' : Around α κ W) (p p' : Past α) : Prop where
  le : ∀ ts d, p.calls ts d ≤ p'.calls ts d
  eq : ∀ ts d, A d → p'.calls ts d = p.calls ts d
  since : ∀ n d, own = some n → A d → p'.callsSince n d = p.callsSince n d
  passes : ∀ ts, p'.passes ts = p.passes ts
  sets : ∀ ts, p'.sets ts = p.sets ts
  runs : p'.runs.length = p.runs.length
  justRan : ∀ d, p'.justRan d = p.justRan d
  nodes : SameMembers e.nodes e'.nodes
  place : ∀ n, own = some n → e'.place n = e.place n
  exact : e'.exact = e.exact
  finished : e'.finished p'.inRun = e.finished p.inRun
  number : e'.number p'.inRun = e.number p.inRun
  asks : ∀ f, OfWorld f → e'.asks p'.inRun f = e.asks p.inRun f
  time : e'.time p'.inRun = e.time p.inRun
  tick : e'.tick = e.tick

section
variable {A : α → Prop} {own : Option α} {e e' : Around α κ W} {p p' : Past α}

theorem SeesMore.sum (h : SeesMore A own e e' p p') (ts : TimeScale) : ∀ ds : List α,
    (ds.map (p.calls ts)).sum ≤ (ds.map (p'.calls ts)).sum
  | [] => Nat.le_refl _
  | d :: ds => by
    have := h.sum ts ds
    have := h.le ts d
    simp only [List.map_cons, List.sum_cons]; omega

theorem any_members {x y : List α} (h : SameMembers x y) (f : α → Bool) : y.any f = x.any f := by
  rw [Bool.eq_iff_iff, List.any_eq_true, List.any_eq_true]
  exact ⟨fun ⟨n, h1, h2⟩ => ⟨n, (h n).2 h1, h2⟩, fun ⟨n, h1, h2⟩ => ⟨n, (h n).1 h1, h2⟩⟩

theorem all_members {x y : List α} (h : SameMembers x y) (f : α → Bool) : y.all f = x.all f := by
  rw [Bool.eq_iff_iff, List.all_eq_true, List.all_eq_true]
  exact ⟨fun k n h1 => k n ((h n).1 h1), fun k n h1 => k n ((h n).2 h1)⟩

theorem SeesMore.nodesOr (h : SeesMore A own e e' p p') (ds : List α) :
    SameMembers (if ds = [] then e.nodes else ds) (if ds = [] then e'.nodes else ds) := by
  split
  · exact h.nodes
  · exact fun _ => Iff.rfl

/-- A condition that can only become true by further choices. -/
theorem SeesMore.leaf (h : SeesMore A own e e' p p') {k : Leaf α κ W} (hk : DescribedLeaf own k) :
    (GrowsLeaf A k → holdsLeaf e own p k = true → holdsLeaf e' own p' k = true) ∧
    (ShrinksLeaf A k → holdsLeaf e own p k = false → holdsLeaf e' own p' k = false) := by
  have same : ∀ {x y : Bool} {P Q : Prop}, y = x → (P → x = true → y = true) ∧ (Q → x = false → y = false) := by
    rintro x y P Q rfl; exact ⟨fun _ h => h, fun _ h => h⟩
  cases k with
  | func f => exact same (by simp only [holdsLeaf]; exact h.asks f hk)
  | always | never => exact same rfl
  | beforeConsiderationSetExecution | atConsiderationSetExecution | afterConsiderationSetExecution
  | afterNConsiderationSetExecutions => exact same (by simp only [holdsLeaf, h.sets])
  | beforePass | atPass | afterPass | afterNPasses | everyNPasses =>
    exact same (by simp only [holdsLeaf, h.passes])
  | beforeEnvironmentStateUpdate | atEnvironmentStateUpdate | afterEnvironmentStateUpdate
  | afterNEnvironmentStateUpdates => exact same (by simp only [holdsLeaf, h.runs])
  | atEnvironmentSequence | afterEnvironmentSequence | afterNEnvironmentSequences =>
    exact same rfl
  | beforeNCalls d n ts =>
    have := h.le ts d
    refine ⟨fun hA => ?_, fun _ => ?_⟩
    · simp only [holdsLeaf, h.eq ts d hA]; exact id
    · simp only [holdsLeaf, decide_eq_false_iff_not]; omega
  | atNCalls d n ts =>
    refine ⟨fun hA => ?_, fun hA => ?_⟩ <;> simp only [holdsLeaf, h.eq ts d hA] <;> exact id
  | afterCall d n ts =>
    have := h.le ts d
    refine ⟨fun _ => ?_, fun hA => ?_⟩
    · simp only [holdsLeaf, decide_eq_true_eq]; omega
    · simp only [holdsLeaf, h.eq ts d hA]; exact id
  | afterNCalls d n ts =>
    have := h.le ts d
    refine ⟨fun _ => ?_, fun hA => ?_⟩
    · simp only [holdsLeaf, decide_eq_true_eq]; omega
    · simp only [holdsLeaf, h.eq ts d hA]; exact id
  | afterNCallsCombined ds n ts =>
    cases n with
    | none => exact same rfl
    | some n =>
      have := h.sum ts ds
      refine ⟨fun _ => ?_, fun hA => ?_⟩
      · simp only [holdsLeaf, decide_eq_true_eq]; omega
      · have e : ds.map (p'.calls ts) = ds.map (p.calls ts) :=
          List.map_congr_left fun d hd => h.eq ts d (hA d hd)
        simp only [holdsLeaf, e]; exact id
  | everyNCalls d n =>
    obtain ⟨m, rfl⟩ := Option.isSome_iff_exists.1 hk
    refine ⟨fun hA => ?_, fun hA => ?_⟩ <;>
      simp only [holdsLeaf, h.since m d rfl hA] <;> exact id
  | justRan d => exact same (by simp only [holdsLeaf, h.justRan])
  | allHaveRun ds ts =>
    have hm := h.nodesOr ds
    refine ⟨fun _ => ?_, fun hA => ?_⟩
    · simp only [holdsLeaf, decide_eq_true_eq]
      intro k d hd
      exact Nat.le_trans (k d ((hm d).2 hd)) (h.le ts d)
    · simp only [holdsLeaf, decide_eq_false_iff_not]
      intro k k'
      refine k fun d hd => ?_
      have := k' d ((hm d).1 hd)
      rw [h.eq ts d] at this
      · exact this
      · by_cases hds : ds = []
        · exact hA.1 hds d
        · rw [if_neg hds] at hd; exact hA.2 d hd
  | whenFinished d => exact same (by simp only [holdsLeaf, h.finished])
  | whenFinishedAny ds =>
    exact same (by simp only [holdsLeaf, h.finished]; exact any_members (h.nodesOr ds) _)
  | whenFinishedAll ds =>
    exact same (by simp only [holdsLeaf, h.finished]; exact all_members (h.nodesOr ds) _)
  | threshold => exact same (by simp only [holdsLeaf, h.number])
  | timeTermination => exact same (by simp only [holdsLeaf, h.time])
  | timeInterval r b f si ei =>
    refine same ?_
    simp only [holdsLeaf, h.time, h.exact, h.tick]
    cases own with
    | none => rfl
    | some n => cases b <;> simp only [h.place n rfl]

mutual
theorem SeesMore.cond (h : SeesMore A own e e' p p') {st : Store α κ} :
    ∀ {c : Cond α κ W}, Described st own c → 
      (Moves A true c → holds e own p c = true → holds e' own p' c = true) ∧
      (Moves A false c → holds e own p c = false → holds e' own p' c = false)
  | .leaf o k, hd => by
    have hk : DescribedLeaf own k := by cases hd with | leaf hk _ => exact hk
    obtain ⟨k1, k2⟩ := h.leaf hk
    unfold Moves holds
    exact ⟨fun g => k1 (g.1 rfl), fun g => k2 (g.2 rfl)⟩
  | .whileNot o f, hd => by
    have hf : OfWorld f := by cases hd with | whileNot hf => exact hf
    simp only [holds, h.asks f hf]
    exact ⟨fun _ g => g, fun _ g => g⟩
  | .all o cs, hd => by
    have hcs : ∀ c ∈ cs, Described st own c := by cases hd with | all h => exact h
    simp only [Moves, holds]
    exact (h.conds hcs).1
  | .any o cs, hd => by
    have hcs : ∀ c ∈ cs, Described st own c := by cases hd with | any h => exact h
    simp only [Moves, holds]
    exact (h.conds hcs).2
  | .not o c, hd => by
    have hc : Described st own c := by cases hd with | not h => exact h
    obtain ⟨k1, k2⟩ := h.cond hc
    simp only [Moves, holds, Bool.not_true, Bool.not_false, Bool.not_eq_true', Bool.not_eq_false']
    exact ⟨k2, k1⟩
  | .nwhen o c k, hd => nomatch hd
theorem SeesMore.conds (h : SeesMore A own e e' p p') {st : Store α κ} :
    ∀ {cs : List (Cond α κ W)}, (∀ c ∈ cs, Described st own c) →
      ((MovesAll A true cs → holdsAll e own p cs = true → holdsAll e' own p' cs = true) ∧
       (MovesAll A false cs → holdsAll e own p cs = false → holdsAll e' own p' cs = false)) ∧
      ((MovesAll A true cs → holdsAny e own p cs = true → holdsAny e' own p' cs = true) ∧
       (MovesAll A false cs → holdsAny e own p cs = false → holdsAny e' own p' cs = false))
  | [], _ => ⟨⟨fun _ h => h, fun _ h => h⟩, ⟨fun _ h => h, fun _ h => h⟩⟩
  | c :: cs, hd => by
    obtain ⟨k1, k2⟩ := h.cond (hd c (by simp))
    obtain ⟨⟨k3, k4⟩, k5, k6⟩ := h.conds (cs := cs) (fun x hx => hd x (by simp [hx]))
    simp only [MovesAll, holdsAll, holdsAny, Bool.and_eq_true, Bool.or_eq_true, Bool.and_eq_false_iff,
      Bool.or_eq_false_iff]
    refine ⟨⟨fun g k => ⟨k1 g.1 k.1, k3 g.2 k.2⟩, fun g k => ?_⟩, fun g k => ?_, fun g k => ⟨k2 g.1 k.1, k6 g.2 k.2⟩⟩
    · exact k.imp (k2 g.1) (k4 g.2)
    · exact k.imp (k1 g.1) (k5 g.2)
end

mutual
theorem holds_bare (e : Around α κ W) (own : Option α) (p : Past α) :
    ∀ c : Cond α κ W, holds e own p (bare c) = holds e own p c
  | .leaf _ _ | .whileNot _ _ | .nwhen _ _ _ => rfl
  | .all _ cs => by simp only [bare, holds]; exact (holds_bares e own p cs).1
  | .any _ cs => by simp only [bare, holds]; exact (holds_bares e own p cs).2
  | .not _ c => by simp only [bare, holds, holds_bare e own p c]
theorem holds_bares (e : Around α κ W) (own : Option α) (p : Past α) :
    ∀ cs : List (Cond α κ W), holdsAll e own p (bares cs) = holdsAll e own p cs ∧
      holdsAny e own p (bares cs) = holdsAny e own p cs
  | [] => ⟨rfl, rfl⟩
  | c :: cs => by
    simp only [bares, holdsAll, holdsAny, holds_bare e own p c, (holds_bares e own p cs).1,
      (holds_bares e own p cs).2, and_self]
end

theorem holds_of_bare (e : Around α κ W) (own : Option α) (p : Past α) {c c' : Cond α κ W}
    (h : bare c' = bare c) : holds e own p c' = holds e own p c := by
  rw [← holds_bare, h, holds_bare]

mutual
theorem moves_bare (A : α → Prop) : ∀ (up : Bool) (c : Cond α κ W), Moves A up (bare c) ↔ Moves A up c
  | _, .leaf _ _ | _, .whileNot _ _ | _, .nwhen _ _ _ => Iff.rfl
  | up, .all _ cs => by simp only [bare, Moves]; exact moves_bares A up cs
  | up, .any _ cs => by simp only [bare, Moves]; exact moves_bares A up cs
  | up, .not _ c => by simp only [bare, Moves]; exact moves_bare A _ c
theorem moves_bares (A : α → Prop) : ∀ (up : Bool) (cs : List (Cond α κ W)),
    MovesAll A up (bares cs) ↔ MovesAll A up cs
  | _, [] => Iff.rfl
  | up, c :: cs => by simp only [bares, MovesAll, moves_bare A up c, moves_bares A up cs]
end

theorem bare_within {c c' : Cond α κ W} (h : bare c' = bare c) :
    bare (within c') = bare (within c) := by
  cases c <;> cases c' <;> simp only [bare, Cond.nwhen.injEq, reduceCtorEq] at h <;>
    simp_all [within, bare]

theorem moves_of_bare {A : α → Prop} {up : Bool} {c c' : Cond α κ W}
    (h : bare c' = bare c) (hm : Moves A up (within c)) : Moves A up (within c') := by
  rw [← moves_bare, bare_within h, moves_bare]; exact hm

end

theorem movesAll_of {A : α → Prop} {up : Bool} : ∀ {cs : List (Cond α κ W)},
    (∀ c ∈ cs, Moves A up c) → MovesAll A up cs
  | [], _ => trivial
  | c :: cs, h => ⟨h c (by simp), movesAll_of fun x hx => h x (by simp [hx])⟩

/-! ## Rules -/

theorem Past.calls_next (p : Past α) (X : List α) (ts : TimeScale) (d : α) :
    ({ p with next := X } : Past α).calls ts d = ({ p with next := [] } : Past α).calls ts d + X.count d := by
  cases ts <;> simp [Past.calls, Past.all, Past.inRun, List.count_append] <;> omega

theorem PastLike.calls {q : List (List α)} {p p' : Past α} (h : PastLike q p p') (ts : TimeScale)
    (d : α) : ({ p' with next := [] } : Past α).calls ts d = ({ p with next := [] } : Past α).calls ts d := by
  have h1 := h.now.flat.count_eq d
  have h2 := h.inRun.flat.count_eq d
  have h3 := h.all.flat.count_eq d
  cases ts <;> simp only [Past.calls, List.append_nil, Past.inRun, Past.all] at h1 h2 h3 ⊢ <;>
    simp only [h1, h2, h3]

theorem PastLike.sees {q : List (List α)} {p p' : Past α} (h : PastLike q p p') {e e' : Around α κ W}
    (he : AroundLike q e e') {l X Y : List α} {n : α} (hl : l ∈ q) (hn : n ∈ l) (hX : X.Nodup)
    (hY : Y.Nodup) (hXY : ∀ x ∈ X, x ∈ Y) (hYl : ∀ y ∈ Y, y ∈ l) (hnY : n ∉ Y) :
    SeesMore (Aside q n) (some n) e e' { p with next := X } { p' with next := Y } := by
  have hin : Perms p.inRun p'.inRun := h.inRun
  have hflat : ∀ ts d, ({ p' with next := Y } : Past α).calls ts d =
      ({ p with next := [] } : Past α).calls ts d + Y.count d := by
    intro ts d; rw [Past.calls_next, h.calls]
  have haside : ∀ d, Aside q n d → d ∉ Y := by
    intro d hd hdY
    have := hd l hl hn (hYl d hdY)
    exact hnY (this ▸ hdY)
  refine ⟨fun ts d => ?_, fun ts d hd => ?_, fun m d hm hd => ?_, fun ts => ?_, fun ts => ?_,
    h.runs.length, fun d => ?_, he.nodes, fun m hm => ?_, he.exact, he.finished _ _ hin,
    he.number _ _ hin, fun f hf => he.asks _ _ f hin hf, he.time _ _ hin, he.tick⟩
  · rw [hflat, Past.calls_next]
    exact Nat.add_le_add_left (count_le_of_subset hX hY hXY d) _
  · rw [hflat, Past.calls_next p X, List.count_eq_zero_of_not_mem (haside d hd),
      List.count_eq_zero_of_not_mem fun k => haside d hd (hXY d k)]
  · injection hm with hm; subst hm
    unfold Past.callsSince
    have e1 : ({ p' with next := Y } : Past α).inRun = p'.inRun := rfl
    have e2 : ({ p with next := X } : Past α).inRun = p.inRun := rfl
    simp only [e1, e2]
    rw [since_append_not_mem _ _ hnY, since_append_not_mem _ _ (fun k => hnY (hXY n k)),
      List.count_append, List.count_append, List.count_eq_zero_of_not_mem (haside d hd),
      List.count_eq_zero_of_not_mem fun k => haside d hd (hXY d k)]
    by_cases hdm : d = n
    · subst hdm
      rw [List.count_eq_zero_of_not_mem (not_mem_since d _),
        List.count_eq_zero_of_not_mem (not_mem_since d _)]
      have hmem : d ∈ p'.inRun.flatten ↔ d ∈ p.inRun.flatten := hin.flat.mem_iff.symm
      have hnX : d ∉ X := fun k => hnY (hXY d k)
      simp [List.mem_append, hmem, hnY, hnX]
    have := since_perm hdm hin (fun x hx ⟨k1, k2⟩ => by
      obtain ⟨l', hl', k3, k4⟩ := h.inside x hx n k1 d k2
      exact hdm (hd l' hl' k3 k4)) [] [] rfl
    simp at this
    simp [this, hdm]
  · have h1 := h.runs.flatten.length
    have h2 := h.before.length
    cases ts <;> simp only [Past.passes, h1, h2]
  · have h1 := h.all.length
    have h2 := hin.length
    simp only [Past.all, Past.inRun] at h1 h2
    cases ts <;> simp only [Past.sets, Past.all, Past.inRun, h1, h2]
  · have e1 : ({ p' with next := Y } : Past α).all = p'.all := rfl
    have e2 : ({ p with next := X } : Past α).all = p.all := rfl
    unfold Past.justRan
    rw [e1, e2]
    rcases h.all.getLast with ⟨k1, k2⟩ | ⟨x, y, k1, k2, k3⟩
    · rw [k1, k2]
    · rw [k1, k2]; simp only [k3.mem_iff]
  · injection hm with hm; subst hm
    exact he.place n (List.mem_flatten.2 ⟨l, hl, hn⟩)

theorem PastLike.seesEnd {q : List (List α)} {p p' : Past α} (h : PastLike q p p') {e e' : Around α κ W}
    (he : AroundLike q e e') (hp : p.next = []) (hp' : p'.next = []) :
    SeesMore (fun _ => True) none e e' p p' := by
  have hin : Perms p.inRun p'.inRun := h.inRun
  have hcalls : ∀ ts d, p'.calls ts d = p.calls ts d := by
    intro ts d
    have := h.calls ts d
    have e1 : p = { p with next := [] } := by rw [← hp]
    have e2 : p' = { p' with next := [] } := by rw [← hp']
    rw [e1, e2]; exact this
  refine ⟨fun ts d => Nat.le_of_eq (hcalls ts d).symm, fun ts d _ => hcalls ts d,
    (fun m d hm => by cases hm), fun ts => ?_, fun ts => ?_,
    h.runs.length, fun d => ?_, he.nodes, (fun m hm => by cases hm), he.exact, he.finished _ _ hin,
    he.number _ _ hin, fun f hf => he.asks _ _ f hin hf, he.time _ _ hin, he.tick⟩
  · have h1 := h.runs.flatten.length
    have h2 := h.before.length
    cases ts <;> simp only [Past.passes, h1, h2]
  · have h1 := h.all.length
    have h2 := hin.length
    cases ts <;> simp only [Past.sets, h1, h2]
  · unfold Past.justRan
    rcases h.all.getLast with ⟨k1, k2⟩ | ⟨x, y, k1, k2, k3⟩
    · rw [k1, k2]
    · rw [k1, k2]; simp only [k3.mem_iff]

section
variable {s s' : Sys α κ W} {e e' : Around α κ W} {a a' : RunArgs α κ W}

theorem Spec.Restated.symm (h : Restated s s') : Restated s' s := by
  refine ⟨fun n => (h.nodes n).symm, fun n => ?_, h.queue.symm, fun n => (h.conds n).symm,
    ⟨h.once.2, h.once.1⟩, h.mode.symm, h.unit.symm⟩
  obtain ⟨h1, h2⟩ := h.senders n
  constructor
  · intro y hy
    cases hx : Dict.get? s.graph n with
    | none => rw [h2 hx] at hy; cases hy
    | some x =>
      obtain ⟨y', k1, k2⟩ := h1 x hx
      rw [hy] at k1; injection k1 with k1; subst k1
      exact ⟨x, rfl, fun m => (k2 m).symm⟩
  · intro hy
    cases hx : Dict.get? s.graph n with
    | none => rfl
    | some x =>
      obtain ⟨y', k1, _⟩ := h1 x hx
      rw [hy] at k1; cases k1

theorem Spec.SameSets.memFlat {q q' : List (List α)} (h : SameSets q q') (n : α) :
    n ∈ q.flatten ↔ n ∈ q'.flatten := by
  have key : ∀ {q q' : List (List α)}, SameSets q q' → n ∈ q.flatten → n ∈ q'.flatten := by
    intro q q' h hn
    obtain ⟨l, hl, hnl⟩ := List.mem_flatten.1 hn
    obtain ⟨l', hl', hll⟩ := h.mem l hl
    exact List.mem_flatten.2 ⟨l', hl', (hll n).1 hnl⟩
  exact ⟨key h, key h.symm⟩

theorem Spec.SameSets.aside {q q' : List (List α)} (h : SameSets q q') (n d : α) (ha : Aside q n d) :
    Aside q' n d := by
  intro l' hl' h1 h2
  obtain ⟨l, hl, hll⟩ := h.symm.mem l' hl'
  exact ha l hl ((hll n).1 h1) ((hll d).1 h2)

theorem aside_eq {q q' : List (List α)} (h : SameSets q q') (n : α) : Aside q' n = Aside q n :=
  funext fun d => propext ⟨h.symm.aside n d, h.aside n d⟩

theorem Spec.SetsSettled.restated (hs : SetsSettled s) (h : Restated s s') : SetsSettled s' := by
  intro n hn
  obtain ⟨h1, h2⟩ := hs n ((h.queue.memFlat n).2 hn)
  have hc := h.conds n
  rw [aside_eq h.queue]
  constructor
  · intro c' hc'
    rw [hc'] at hc
    cases hx : Dict.get? s.conds n with
    | none => rw [hx] at hc; cases hc
    | some c =>
      rw [hx] at hc
      simp only [Option.map_some, Option.some.injEq] at hc
      exact moves_of_bare hc (h1 c hx)
  · intro hn' ds hds d hd
    rw [hn'] at hc
    cases hx : Dict.get? s.conds n with
    | some c => rw [hx] at hc; cases hc
    | none =>
      obtain ⟨x, k1, k2⟩ := (h.symm.senders n).1 ds hds
      exact h2 hx x k1 d ((k2 d).1 hd)

/-- A node is due in both schedulers. -/
theorem Spec.Restated.climbs (h : Restated s s') (hs : SetsSettled s) (hd : DescribedNodes s)
    (he : AroundLike s.queue e e') : Climbs s.queue (rule s e) (rule s' e') := by
  intro p p' l X Y n hp hl hn hX hY hXY hYl hnY hR
  have hsee := hp.sees he hl hn hX hY hXY hYl hnY
  have hnq : n ∈ s.queue.flatten := List.mem_flatten.2 ⟨l, hl, hn⟩
  obtain ⟨g1, g2⟩ := hs n hnq
  have hc := h.conds n
  have hself : Aside s.queue n n := fun _ _ _ _ => rfl
  unfold rule at hR ⊢
  rcases (hd n hnq).2 with ⟨c, e1, e2⟩ | ⟨o, c, k, e1, e2, _⟩ | ⟨e1, ds, e2, e3⟩
  · have hnw : within c = c := by cases e2 <;> rfl
    have hm := g1 c e1
    rw [hnw] at hm
    rw [e1] at hR hc
    cases hx : Dict.get? s'.conds n with
    | none => rw [hx] at hc; cases hc
    | some c' =>
      rw [hx] at hc
      simp only [Option.map_some, Option.some.injEq] at hc
      have k1 : holds e (some n) { p with next := X } c = true := by
        cases e2 <;> exact hR
      have k2 := (hsee.cond e2).1 hm k1
      rw [← holds_of_bare e' (some n) _ hc] at k2
      cases c' with
      | nwhen => cases e2 <;> simp [bare] at hc
      | _ => exact k2
  · have hm := g1 _ e1
    rw [e1] at hR hc
    simp only [within] at hm
    simp only [Bool.and_eq_true, decide_eq_true_eq] at hR
    cases hx : Dict.get? s'.conds n with
    | none => rw [hx] at hc; cases hc
    | some c' =>
      rw [hx] at hc
      cases c' with
      | nwhen o' c2 k' =>
        simp only [Option.map_some, Option.some.injEq, bare, Cond.nwhen.injEq, true_and] at hc
        obtain ⟨hc, rfl⟩ := hc
        simp only [Bool.and_eq_true, decide_eq_true_eq]
        refine ⟨?_, ?_⟩
        · rw [hsee.eq .life n hself]; exact hR.1
        · rw [holds_of_bare e' (some n) _ hc]
          exact (hsee.cond e2).1 hm hR.2
      | _ => simp [bare] at hc
  · rw [e1] at hR hc
    have hx : Dict.get? s'.conds n = none := by
      cases hx : Dict.get? s'.conds n with
      | none => rfl
      | some c => rw [hx] at hc; cases hc
    obtain ⟨y, k1, k2⟩ := (h.senders n).1 ds e2
    rw [hx, k1]
    rw [e2] at hR
    simp only [decide_eq_true_eq] at hR ⊢
    intro d hd'
    have hdd := (k2 d).2 hd'
    rw [hsee.since n d rfl (g2 e1 ds e2 d hdd)]
    exact hR d hdd

theorem Spec.RestatedArgs.stops {q : List (List α)} (h : RestatedArgs a a') (hE : DescribedEnd a)
    (he : AroundLike q e e') : StopsLike q (stop a e) (stop a' e') := by
  intro p p' hp hp0 hp0'
  have hsee := hp.seesEnd he hp0 hp0'
  have key : ∀ {c : Cond α κ W}, (∀ st : Store α κ, Described st none c) →
      holds e' none p' c = holds e none p c := by
    intro c hc
    have hst := hc ⟨fun _ => none, fun _ _ => 0, 0⟩
    have hm : ∀ up, Moves (fun _ : α => True) up c := by
      clear hc
      intro up
      induction hst generalizing up with
      | @leaf o k _ _ =>
        refine ⟨fun _ => ?_, fun _ => ?_⟩
        · cases k <;> simp [GrowsLeaf]
        · cases k <;> simp [ShrinksLeaf]
      | whileNot => trivial
      | all _ ih => exact movesAll_of fun c hc => ih c hc up
      | any _ ih => exact movesAll_of fun c hc => ih c hc up
      | not _ ih => exact ih _
    obtain ⟨k1, k2⟩ := hsee.cond hst
    cases hb : holds e none p c with
    | true => exact k1 (hm _) hb
    | false => exact k2 (hm _) hb
  unfold stop
  rw [holds_of_bare e' none p' h.esu, holds_of_bare e' none p' h.seq, key fun st => (hE st).1,
    key fun st => (hE st).2]

end
end GS
