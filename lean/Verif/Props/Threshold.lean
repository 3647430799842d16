import Verif.Props.Decided
/-!
# C64: `Threshold`
-/

set_option linter.unusedSectionVars false

namespace GS.Props
open Spec
variable {α κ W : Type _} [DecidableEq α] [DecidableEq κ]
variable {E : Sys α κ W → Sys α κ W → Prop} {a : RunArgs α κ W} {s0 s : Sys α κ W}
variable {abs : Bool} {h : History α κ W} {pc : PC α}
variable {v : View α κ W} {id : Option κ} {st : Store α κ} {o : Nat}
variable {w : World α κ W} {d : α} {p : Nat} {thr atol rtol : Rat} {cmp : String}
variable {ix : IndicesArg} {getter : Option Nat} {val : Option (α → Nat → Except Err Unit)}

theorem pyIndex_front {β : Type _} (l : List β) (i : Nat) : pyIndex l i = orIndexError l[i]? := by
  unfold pyIndex
  rw [if_pos (by omega)]; rfl

theorem pyIndex_back {β : Type _} (l : List β) (i : Nat) :
    pyIndex l (-(i + 1 : Int)) = orIndexError l.reverse[i]? := by
  unfold pyIndex
  rw [if_neg (by omega)]
  by_cases hi : i < l.length
  · rw [if_pos (by omega), List.getElem?_reverse hi]
    congr 2; omega
  · rw [if_neg (by omega), List.getElem?_eq_none (by simpa using hi)]; rfl

theorem orIndexError_ok {β : Type _} {x : Option β} {y : β} : orIndexError x = .ok y ↔ x = some y := by
  cases x <;> simp [orIndexError]

theorem subscripts_leads : ∀ (is : List Idx) (x y : PyVal), subscripts x is = .ok y ↔ Leads x is y
  | [], x, y => by
    unfold subscripts
    exact ⟨fun h => by cases h; exact .here, fun h => by cases h; rfl⟩
  | i :: is, x, y => by
    have ih := subscripts_leads is
    unfold subscripts
    cases hx : subscript x i with
    | error e =>
      refine ⟨fun h => (by cases h), fun h => ?_⟩
      cases h with
      | front h1 h2 =>
        simp only [subscript] at hx; rw [pyIndex_front, h1] at hx; cases hx
      | back h1 h2 =>
        simp only [subscript] at hx; rw [pyIndex_back, h1] at hx; cases hx
      | key h1 h2 => simp only [subscript, h1] at hx; cases hx
    | ok z =>
      dsimp only
      rw [ih]
      constructor
      · intro h
        cases x with
        | num _ => simp [subscript] at hx
        | other => simp [subscript] at hx
        | dict D =>
          simp only [subscript] at hx
          cases hk : Dict.get? D i with
          | none => rw [hk] at hx; cases hx
          | some t => rw [hk] at hx; cases hx; exact .key hk h
        | seq l =>
          cases i with
          | str _ => simp [subscript] at hx
          | int i =>
            simp only [subscript] at hx
            by_cases hi : 0 ≤ i
            · obtain ⟨k, rfl⟩ := Int.eq_ofNat_of_zero_le hi
              rw [pyIndex_front, orIndexError_ok] at hx
              exact .front hx h
            · obtain ⟨k, rfl⟩ : ∃ k : Nat, i = -(k + 1 : Int) := ⟨(-i - 1).toNat, by omega⟩
              rw [pyIndex_back, orIndexError_ok] at hx
              exact .back hx h
      · intro h
        generalize hj : i :: is = js at h
        cases h with
        | here => cases hj
        | front h1 h2 =>
          cases hj
          simp only [subscript] at hx; rw [pyIndex_front, h1] at hx; cases hx; exact h2
        | back h1 h2 =>
          cases hj
          simp only [subscript] at hx; rw [pyIndex_back, h1] at hx; cases hx; exact h2
        | key h1 h2 => cases hj; simp only [subscript, h1] at hx; cases hx; exact h2

theorem thresholdValue_ok {x : Rat} :
    thresholdValue w id d p (normIndices ix) getter = .ok x ↔
      ∃ y, ParamIs w id d p getter y ∧ Leads y (MeantIndices ix) (.num x) := by
  have hp : ∀ y, getParameterValue w id d p getter = .ok y ↔ ParamIs w id d p getter y := by
    intro y; cases getter <;> rfl
  have hi : ∀ y, applyIndices y (normIndices ix) = subscripts y (MeantIndices ix) := by
    intro y; cases ix <;> rfl
  have hf : ∀ z, toFloat z = .ok x ↔ z = .num x := by
    intro z; cases z <;> simp [toFloat]
  unfold thresholdValue
  cases hg : getParameterValue w id d p getter with
  | error e =>
    refine ⟨fun h => (by cases h), fun ⟨y, hy, _⟩ => ?_⟩
    rw [(hp y).2 hy] at hg; cases hg
  | ok y =>
    dsimp only
    rw [hi]
    have hy := (hp y).1 hg
    have : ∀ y', ParamIs w id d p getter y' → y' = y := by
      intro y' h'; rw [(hp y').2 h'] at hg; cases hg; rfl
    cases hs : subscripts y (MeantIndices ix) with
    | error e =>
      refine ⟨fun h => (by cases h), fun ⟨y', hy', hl⟩ => ?_⟩
      rw [this y' hy', ← subscripts_leads, hs] at hl; cases hl
    | ok z =>
      dsimp only
      rw [hf]
      constructor
      · rintro rfl; exact ⟨y, hy, (subscripts_leads _ _ _).1 hs⟩
      · rintro ⟨y', hy', hl⟩
        rw [this y' hy', ← subscripts_leads, hs] at hl; cases hl; rfl

/-- The names of the comparators. -/
abbrev sixNames : List String := ["<", "<=", ">", ">=", "==", "!="]

theorem comparatorOf_none : comparatorOf cmp = none ↔ cmp ∉ sixNames := by
  unfold comparatorOf sixNames
  split <;> simp_all

/-- The parameter exists, as the custom validator or else the object says. -/
def ParamExists (w : World α κ W) (d : α) (p : Nat) : Option (α → Nat → Except Err Unit) → Prop
  | some f => f d p = .ok ()
  | none => ∃ x, w.attr d p = .ok x

theorem validate_ok : validateParameter w d p val = .ok () ↔ ParamExists w d p val := by
  unfold validateParameter ParamExists
  cases val with
  | some f => rfl
  | none =>
    dsimp only
    split <;> rename_i h <;> simp [h]

/-- C64, construction: `Threshold(...)` succeeds exactly if the parameter exists and the
comparator is one of the six; a missing attribute and an unknown comparator are reported as
`ConditionError`, and other exceptions of the validator and of reading the attribute are
passed on. -/
theorem C64_constructor :
    ((∃ c : Cond α κ W, newThreshold w o d p thr cmp ix atol rtol getter val = .ok c) ↔
      ParamExists w d p val ∧ cmp ∈ sixNames) ∧
    (ParamExists w d p val → cmp ∉ sixNames →
      newThreshold w o d p thr cmp ix atol rtol getter val = .error .conditionError) ∧
    (w.attr d p = .error .attributeError →
      newThreshold w o d p thr cmp ix atol rtol getter none = .error .conditionError) ∧
    (∀ e, w.attr d p = .error e → e ≠ .attributeError →
      newThreshold w o d p thr cmp ix atol rtol getter none = .error e) ∧
    (∀ f e, f d p = .error e →
      newThreshold w o d p thr cmp ix atol rtol getter (some f) = .error e) := by
  refine ⟨?_, ?_, ?_, ?_, ?_⟩
  · rw [← validate_ok]
    unfold newThreshold
    cases hv : validateParameter w d p val with
    | error e => simp
    | ok u =>
      dsimp only
      cases hc : comparatorOf cmp with
      | none => simp [comparatorOf_none.1 hc]
      | some c =>
        have : cmp ∈ sixNames := Classical.byContradiction fun h => by
          rw [← comparatorOf_none, hc] at h; cases h
        exact ⟨fun _ => ⟨rfl, this⟩, fun _ => ⟨_, rfl⟩⟩
  · intro h1 h2
    unfold newThreshold
    rw [validate_ok.2 h1, comparatorOf_none.2 h2]
  · intro h
    unfold newThreshold validateParameter
    rw [h]
  · intro e h he
    unfold newThreshold validateParameter
    rw [h]
    cases e <;> first | rfl | exact absurd rfl he
  · intro f e h
    unfold newThreshold validateParameter
    dsimp only
    rw [h]

theorem isClose_iff {x t : Rat} : isClose x t atol rtol = true ↔ CloseTo x t atol rtol :=
  decide_eq_true_iff

theorem compares_iff {c : Comparator} {x : Rat} (h : comparatorOf cmp = some c) :
    thresholdFunc x thr c atol rtol = true ↔ Compares x thr atol rtol cmp := by
  unfold comparatorOf at h
  split at h <;> cases h <;> simp [thresholdFunc, Compares, ← isClose_iff]

/-- C64, evaluation: a `Threshold` that was constructed with the name `cmp` of a comparator
answers `b` exactly if the subscripts `indices` lead from the value of the parameter to a
number `x`, and `b` says whether `x cmp threshold` holds, where `==` and `!=` are up to the
tolerances.  Otherwise it raises.  Evaluation changes nothing. -/
theorem C64_value {c : Cond α κ W} {w0 : World α κ W}
    (hc : newThreshold w0 o d p thr cmp ix atol rtol getter val = .ok c) (b : Bool) :
    eval v id c st = (.ok b, st) ↔
      ∃ y x, ParamIs v.world id d p getter y ∧ Leads y (MeantIndices ix) (.num x) ∧
        (b = true ↔ Compares x thr atol rtol cmp) := by
  obtain ⟨cm, hcm, rfl⟩ : ∃ cm, comparatorOf cmp = some cm ∧
      c = .leaf o (.threshold d p thr cm (normIndices ix) atol rtol getter) := by
    unfold newThreshold at hc
    split at hc
    · cases hc
    · split at hc
      · cases hc
      · rename_i cm hcm; injection hc with hc; exact ⟨cm, hcm, hc.symm⟩
  simp only [eval, evalLeaf, Prod.mk.injEq, and_true]
  cases hv : thresholdValue v.world id d p (normIndices ix) getter with
  | error e =>
    refine ⟨fun h => (by cases h), fun ⟨y, x, h1, h2, _⟩ => ?_⟩
    rw [thresholdValue_ok.2 ⟨y, h1, h2⟩] at hv; cases hv
  | ok x =>
    obtain ⟨y, hy, hl⟩ := thresholdValue_ok.1 hv
    have key := compares_iff (x := x) (thr := thr) (atol := atol) (rtol := rtol) hcm
    constructor
    · intro h
      injection h with h
      exact ⟨y, x, hy, hl, by rw [← h]; exact key⟩
    · rintro ⟨y', x', hy', hl', hb⟩
      have := thresholdValue_ok.2 ⟨y', hy', hl'⟩
      rw [hv] at this; injection this with this; subst this
      show Except.ok (thresholdFunc x thr cm atol rtol) = Except.ok b
      rw [show thresholdFunc x thr cm atol rtol = b by rw [Bool.eq_iff_iff, key, hb]]

/-- C64: `Threshold(...)` warns that the tolerances are ignored exactly if the condition is
constructed, a tolerance was given, and no tolerance whatever could make a difference to its
comparison. -/
theorem C64_warning :
    newThresholdWarns w d p cmp atol rtol val = true ↔
      (∃ c : Cond α κ W, newThreshold w o d p thr cmp ix atol rtol getter val = .ok c) ∧
      (atol ≠ 0 ∨ rtol ≠ 0) ∧
      ∀ x atol' rtol', Compares x thr atol' rtol' cmp ↔ Compares x thr 0 0 cmp := by
  unfold newThresholdWarns newThreshold
  cases hv : validateParameter w d p val with
  | error e => simp
  | ok u =>
    dsimp only
    cases hc : comparatorOf cmp with
    | none => simp
    | some c =>
      have hex : (∃ c' : Cond α κ W,
          (Except.ok (.leaf o (.threshold d p thr c (normIndices ix) atol rtol getter)) : Except Err (Cond α κ W)) = .ok c') :=
        ⟨_, rfl⟩
      simp only [hex, true_and]
      have hfar : CloseTo (thr + 1) thr 1 0 ∧ ¬ CloseTo (thr + 1) thr 0 0 := by
        unfold CloseTo
        rw [show thr + 1 - thr = 1 by grind]
        have h1 : (1 : Rat).abs = 1 := by decide +kernel
        rw [h1]
        constructor <;> grind
      have h0 : ((atol != 0 || rtol != 0) = true) ↔ (atol ≠ 0 ∨ rtol ≠ 0) := by simp
      unfold comparatorOf at hc
      split at hc <;> cases hc <;> simp only [Bool.and_true, Bool.and_false, h0, Compares]
      · exact ⟨fun h => ⟨h, fun _ _ _ => trivial⟩, fun h => h.1⟩
      · exact ⟨fun h => ⟨h, fun _ _ _ => trivial⟩, fun h => h.1⟩
      · exact ⟨fun h => ⟨h, fun _ _ _ => trivial⟩, fun h => h.1⟩
      · exact ⟨fun h => ⟨h, fun _ _ _ => trivial⟩, fun h => h.1⟩
      · exact ⟨fun h => (by cases h), fun h => absurd ((h.2 (thr + 1) 1 0).1 hfar.1) hfar.2⟩
      · exact ⟨fun h => (by cases h), fun h => absurd hfar.1 ((h.2 (thr + 1) 1 0).2 hfar.2)⟩

/-- A world in which every attribute is zero. -/
def zeroWorld : World Nat Nat Unit where
  ext := ()
  finished := fun _ _ => .ok true
  attr := fun _ _ => .ok (.num 0)
  getter := fun _ _ _ _ => .ok (.num 0)

example : newThresholdWarns zeroWorld 0 0 "<" (1/2) 0 none = true ∧
    newThresholdWarns zeroWorld 0 0 "==" (1/2) 0 none = false ∧
    newThresholdWarns zeroWorld 0 0 "<" 0 0 none = false := by
  refine ⟨?_, ?_, ?_⟩ <;> decide +kernel

/-- C64: the comparators come in complementary pairs: `==` and `!=` with any tolerances, `<`
and `>=`, `<=` and `>`. -/
theorem C64_complement (x : Rat) (atol' rtol' : Rat) :
    (Compares x thr atol rtol "!=" ↔ ¬ Compares x thr atol rtol "==") ∧
    (Compares x thr atol rtol ">=" ↔ ¬ Compares x thr atol' rtol' "<") ∧
    (Compares x thr atol rtol ">" ↔ ¬ Compares x thr atol' rtol' "<=") := by
  refine ⟨Iff.rfl, ?_, ?_⟩ <;> simp only [Compares]
  · exact Rat.not_lt.symm
  · exact Rat.not_le.symm

/-- C64: without tolerances `==` is equality; larger tolerances accept more; a negative
tolerance accepts nothing; `threshold` itself is equal within any tolerance. -/
theorem C64_tolerance (x : Rat) :
    (CloseTo x thr 0 0 ↔ x = thr) ∧
    (∀ atol' rtol', atol ≤ atol' → rtol ≤ rtol' → CloseTo x thr atol rtol → CloseTo x thr atol' rtol') ∧
    (atol < 0 → rtol ≤ 0 → ¬ CloseTo x thr atol rtol) ∧
    (0 ≤ atol → 0 ≤ rtol → CloseTo thr thr atol rtol) := by
  have habs : ∀ y : Rat, y.abs = if 0 ≤ y then y else -y := by
    intro y; unfold Rat.abs; rfl
  unfold CloseTo
  refine ⟨?_, ?_, ?_, ?_⟩
  · rw [habs, habs]; split <;> grind
  · intro a' r' h1 h2 h3
    have : rtol * thr.abs ≤ r' * thr.abs :=
      Rat.mul_le_mul_of_nonneg_right h2 (by rw [habs]; split <;> grind)
    grind
  · intro h1 h2 h3
    have : rtol * thr.abs ≤ 0 * thr.abs :=
      Rat.mul_le_mul_of_nonneg_right h2 (by rw [habs]; split <;> grind)
    rw [habs] at h3
    split at h3 <;> grind
  · intro h1 h2
    have : 0 * thr.abs ≤ rtol * thr.abs :=
      Rat.mul_le_mul_of_nonneg_right h2 (by rw [habs]; split <;> grind)
    have e : (thr - thr).abs = 0 := by rw [show thr - thr = 0 by grind]; rfl
    rw [e]; grind

/-- C64 in a run: a node with a `Threshold` that is in the consideration set from which a set
is chosen is in that set exactly if, when the choice begins, the comparison holds for the
number found then. -/
theorem C64_in_run (hr : Reach E a s0 abs h s pc)
    (hT : Keeps E (fun s => Dict.get? s.countsTotal a.id))
    (hU : Keeps E (fun s => Dict.get? s.countsUseable a.id))
    (hL : Keeps E (fun s => Dict.get? s.execList a.id))
    {h1 h2 : History α κ W} {e : Entry α κ W}
    (hh : h = h1 ++ e :: h2) {i : Nat} {set : List α} {shown : Bool}
    (he : e.ev = .layer i set shown) {c : Cond α κ W} {w0 : World α κ W}
    (hc : newThreshold w0 o d p thr cmp ix atol rtol getter val = .ok c) :
    ∃ pre c0 es layer, h1 = pre ++ c0 :: es ∧ c0.ev = .consider i layer ∧
      (∀ x ∈ es, ∃ m, x.ev = .add m) ∧
      ∀ n ∈ layer, Dict.get? c0.after.conds n = some c →
        ∃ y x, ParamIs c0.after.world a.id d p getter y ∧ Leads y (MeantIndices ix) (.num x) ∧
          (n ∈ set ↔ Compares x thr atol rtol cmp) := by
  obtain ⟨pre, c0, es, layer, e1, e2, e3, _, e4⟩ := C66_decided hr hT hU hL hh he
  refine ⟨pre, c0, es, layer, e1, e2, e3, fun n hn hcn => ?_⟩
  have hd : Decided layer n c0.after.store.owner c ∧ ∀ v st, (eval v a.id c st).2 = st := by
    unfold newThreshold at hc
    split at hc
    · cases hc
    · split at hc
      · cases hc
      · injection hc with hc; subst hc; exact ⟨trivial, fun _ _ => rfl⟩
  have e5 := e4 n hn c hcn hd.1
  have : ∃ b, eval c0.after.toView a.id c c0.after.store = (.ok b, c0.after.store) ∧
      (b = true ↔ n ∈ set) := by
    by_cases hs : n ∈ set
    · exact ⟨true, Prod.ext (e5.1.1 hs) (hd.2 _ _), by simp [hs]⟩
    · exact ⟨false, Prod.ext (e5.2.1 hs) (hd.2 _ _), by simp [hs]⟩
  obtain ⟨b, hb, hbs⟩ := this
  obtain ⟨y, x, k1, k2, k3⟩ := (C64_value hc b).1 hb
  exact ⟨y, x, k1, k2, hbs.symm.trans k3⟩

/-! ## Concrete cases -/

/-- Node 0 has an attribute 7 with the value `[1/2, {9: [2, 3]}]`. -/
def attrWorld : World Nat Nat Unit :=
  { demoWorld with
    attr := fun d p =>
      if d = 0 ∧ p = 7 then .ok (.seq [.num (1 / 2), .dict [(.int 9, .seq [.num 2, .num 3])]])
      else .error .attributeError }

/-- Graph `0 -> 1, 2`; node 1 has `Threshold(0, 7, 13/4, '==', indices=[1, 9, -1], atol=1/4)`
and node 2 `Threshold(0, 7, 1/2, '>', indices=TimeScale.CONSIDERATION_SET_EXECUTION)`. -/
def thrSys : Sys Nat Nat Unit :=
  let s := (Sys.new [(1, [0]), (2, [0])] .standard none 1 attrWorld).alloc 2
  let s := s.addBasic 1 (.leaf 0 (.threshold 0 7 (13 / 4) .eq
    (some [.int 1, .int 9, .int (-1)]) (1 / 4) 0 none))
  s.addBasic 2 (.leaf 1 (.threshold 0 7 (1 / 2) .gt (some [.int 0]) 0 0 none))

/-- The hypotheses of `C64_in_run` are met, and the node is chosen; node 2 is not. -/
example : Reach (fun _ _ => False) demoArgs thrSys false (runAfter thrSys demoArgs 14).1
      (runAfter thrSys demoArgs 14).2.1 (runAfter thrSys demoArgs 14).2.2 ∧
    yields (runAfter thrSys demoArgs 14).1 = [[0], [1]] ∧
    newThreshold (κ := Nat) attrWorld 0 0 7 (13 / 4) "==" (.many [.int 1, .int 9, .int (-1)])
      (1 / 4) 0 none none = .ok (.leaf 0 (.threshold 0 7 (13 / 4) .eq
        (some [.int 1, .int 9, .int (-1)]) (1 / 4) 0 none)) ∧
    newThreshold (κ := Nat) attrWorld 1 0 7 (1 / 2) ">"
      (.timeScale .consideration_set_execution) 0 0 none none =
        .ok (.leaf 1 (.threshold 0 7 (1 / 2) .gt (some [.int 0]) 0 0 none)) ∧
    Leads (.seq [.num (1 / 2), .dict [(.int 9, .seq [.num 2, .num 3])]])
      [.int 1, .int 9, .int (-1)] (.num 3) ∧ CloseTo 3 (13 / 4) (1 / 4) 0 :=
  ⟨run_reach (by decide +kernel) _ 14, by decide +kernel, rfl, rfl,
    .front (i := 1) rfl (.key rfl (.back (i := 0) rfl .here)), by unfold CloseTo; decide +kernel⟩

/-- Errors: a missing attribute and an unknown comparator when the condition is made, a wrong
key and something that is not a number when it is evaluated. -/
example :
    newThreshold (κ := Nat) attrWorld 0 1 7 0 "==" .none 0 0 none none = .error .conditionError ∧
    newThreshold (κ := Nat) attrWorld 0 0 7 0 "=" .none 0 0 none none = .error .conditionError ∧
    evalLeaf thrSys.toView none none (.threshold 0 7 0 .eq (some [.int 1, .str "b"]) 0 0 none) =
      .error .keyError ∧
    evalLeaf thrSys.toView none none (.threshold 0 7 0 .eq none 0 0 none) = .error .typeError :=
  ⟨rfl, rfl, rfl, rfl⟩

end GS.Props
