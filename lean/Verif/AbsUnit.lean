import Verif.Absolute
/-!
# The interval between consideration sets: lemmas
-/

set_option linter.unusedSectionVars false

namespace GS
open Spec
variable {α κ W : Type _} [DecidableEq α] [DecidableEq κ]

/-! ## Divisibility of times -/

theorem Spec.Multiple.refl (x : Rat) : Multiple x x := ⟨1, by grind⟩

theorem Spec.Multiple.zero (d : Rat) : Multiple 0 d := ⟨0, by grind⟩

theorem Spec.Multiple.add {x y d : Rat} (h : Multiple x d) (k : Multiple y d) : Multiple (x + y) d := by
  obtain ⟨i, rfl⟩ := h; obtain ⟨j, rfl⟩ := k
  exact ⟨i + j, by rw [Rat.intCast_add]; grind⟩

theorem Spec.Multiple.sub {x y d : Rat} (h : Multiple x d) (k : Multiple y d) : Multiple (x - y) d := by
  obtain ⟨i, rfl⟩ := h; obtain ⟨j, rfl⟩ := k
  exact ⟨i - j, by rw [Rat.intCast_sub]; grind⟩

theorem Spec.Multiple.imul {x d : Rat} (h : Multiple x d) (k : Int) : Multiple (k * x) d := by
  obtain ⟨i, rfl⟩ := h
  exact ⟨k * i, by rw [Rat.intCast_mul]; grind⟩

theorem Spec.Multiple.trans {x y d : Rat} (h : Multiple x y) (k : Multiple y d) : Multiple x d := by
  obtain ⟨i, rfl⟩ := h; exact k.imul i

/-- The multiples of a number are closed under greatest common divisors. -/
theorem multiple_gcd {c d : Rat} : ∀ x y : Nat, Multiple ((x : Rat) * c) d → Multiple ((y : Rat) * c) d →
    Multiple ((Nat.gcd x y : Nat) * c) d := by
  intro x y
  induction x, y using Nat.gcd.induction with
  | H0 n => intro _ h; simpa using h
  | H1 m n hm ih =>
    intro h1 h2
    rw [Nat.gcd_rec]
    refine ih ?_ h1
    have e : ((n % m : Nat) : Rat) * c = n * c - ((n / m : Nat) : Int) * (m * c) := by
      have : (n : Rat) = ((m * (n / m) + n % m : Nat) : Rat) := by rw [Nat.div_add_mod]
      rw [Rat.natCast_add, Rat.natCast_mul] at this
      rw [this]
      have : (((n / m : Nat) : Int) : Rat) = ((n / m : Nat) : Rat) := rfl
      rw [this]; grind
    rw [e]
    exact h2.sub (h1.imul _)

theorem qty_split {emin : Nat} (q : Qty) (h : emin ≤ q.e) :
    q.val = ((q.m * (10 : Int) ^ (q.e - emin) : Int) : Rat) * (10 : Rat) ^ emin := by
  have e1 : q.m * (10 : Int) ^ q.e = q.m * (10 : Int) ^ (q.e - emin) * (10 : Int) ^ emin := by
    rw [Int.mul_assoc, ← Int.pow_add]
    congr 2; omega
  unfold Qty.val
  rw [e1, Rat.intCast_mul, Rat.intCast_pow]
  rfl

theorem natAbs_split (q : Qty) (emin : Nat) :
    (q.m * (10 : Int) ^ (q.e - emin)).natAbs = q.m.natAbs * 10 ^ (q.e - emin) := by
  rw [Int.natAbs_mul, Int.natAbs_pow]; rfl

theorem multiple_natAbs {x : Int} {c d : Rat} :
    Multiple (((x.natAbs : Nat) : Rat) * c) d ↔ Multiple ((x : Rat) * c) d := by
  have key : ((x.natAbs : Nat) : Rat) = ((x.natAbs : Int) : Rat) := rfl
  rw [key]
  rcases Int.natAbs_eq x with h | h
  · rw [← h]
  · have : (x.natAbs : Int) = -x := by omega
    rw [this, Rat.intCast_neg]
    constructor
    · intro h
      have := h.imul (-1)
      have e : ((-1 : Int) : Rat) * (-(x : Rat) * c) = x * c := by grind
      rw [e] at this; exact this
    · intro h
      have := h.imul (-1)
      have e : ((-1 : Int) : Rat) * ((x : Rat) * c) = -x * c := by grind
      rw [e] at this; exact this

theorem gcdIn_foldl (emin : Nat) : ∀ (qs : List Qty) (g0 : Nat), ∃ g,
    qs.foldl (fun g q => Nat.gcd g (q.m.natAbs * 10 ^ (q.e - emin))) g0 = g ∧ g ∣ g0 ∧
    (∀ q ∈ qs, g ∣ q.m.natAbs * 10 ^ (q.e - emin)) ∧
    ∀ c d : Rat, Multiple ((g0 : Rat) * c) d →
      (∀ q ∈ qs, Multiple (((q.m.natAbs * 10 ^ (q.e - emin) : Nat) : Rat) * c) d) →
      Multiple ((g : Rat) * c) d
  | [], g0 => ⟨g0, rfl, Nat.dvd_refl _, by simp, fun _ _ h _ => h⟩
  | q :: qs, g0 => by
    obtain ⟨g, h1, h2, h3, h4⟩ := gcdIn_foldl emin qs (Nat.gcd g0 (q.m.natAbs * 10 ^ (q.e - emin)))
    refine ⟨g, h1, Nat.dvd_trans h2 (Nat.gcd_dvd_left _ _), ?_, ?_⟩
    · intro p hp
      rcases List.mem_cons.mp hp with rfl | hp
      · exact Nat.dvd_trans h2 (Nat.gcd_dvd_right _ _)
      · exact h3 p hp
    · intro c d hc hq
      exact h4 c d (multiple_gcd _ _ hc (hq q (by simp))) fun p hp => hq p (by simp [hp])

/-- `gcdIn` computes the greatest common divisor. -/
theorem gcdIn_isGcd (emin : Nat) (qs : List Qty) (h : ∀ q ∈ qs, emin ≤ q.e) :
    IsGcd (fun q => q ∈ qs) ((Sys.gcdIn emin qs : Rat) * (10 : Rat) ^ emin) := by
  obtain ⟨g, h1, _, h3, h4⟩ := gcdIn_foldl emin qs 0
  have hg : Sys.gcdIn emin qs = g := h1
  rw [hg]
  refine ⟨Rat.mul_nonneg Rat.natCast_nonneg (Rat.le_of_lt (Rat.pow_pos (by decide))), ?_, ?_⟩
  · intro q hq
    obtain ⟨k, hk⟩ := h3 q hq
    rw [qty_split q (h q hq), ← multiple_natAbs, natAbs_split, hk, Rat.natCast_mul]
    exact ⟨k, by
      have : ((k : Int) : Rat) = (k : Rat) := rfl
      rw [this]; grind⟩
  · intro d hd
    refine h4 _ d ⟨0, by grind⟩ fun q hq => ?_
    rw [← natAbs_split, multiple_natAbs, ← qty_split q (h q hq)]
    exact hd q hq

theorem minExp_le : ∀ (qs : List Qty), ∀ q ∈ qs, Sys.minExp qs ≤ q.e
  | [], q, hq => by cases hq
  | [p], q, hq => by simp at hq; subst hq; simp [Sys.minExp]
  | p :: r :: ps, q, hq => by
    have ih := minExp_le (r :: ps)
    unfold Sys.minExp
    rcases List.mem_cons.mp hq with rfl | hq
    · exact Nat.min_le_left _ _
    · exact Nat.le_trans (Nat.min_le_right _ _) (ih q hq)

/-! ## The times mentioned by conditions -/

theorem mem_anyAbsolute : ∀ (cs : List (Cond α κ W)),
    anyAbsolute cs = true ↔ ∃ c ∈ cs, c.isAbsolute = true
  | [] => by simp [anyAbsolute]
  | c :: cs => by simp [anyAbsolute, mem_anyAbsolute cs]

theorem mem_intervalsOf (q : Qty) : ∀ (cs : List (Cond α κ W)),
    q ∈ intervalsOf cs ↔ ∃ c ∈ cs, c.isAbsolute = true ∧ q ∈ c.intervals
  | [] => by simp [intervalsOf]
  | c :: cs => by
    rw [intervalsOf, List.mem_append, mem_intervalsOf q cs]
    by_cases h : c.isAbsolute = true <;> simp [h]

theorem mem_fixedPointsOf (q : Qty) : ∀ (cs : List (Cond α κ W)),
    q ∈ fixedPointsOf cs ↔ ∃ c ∈ cs, c.isAbsolute = true ∧ q ∈ c.fixedPoints
  | [] => by simp [fixedPointsOf]
  | c :: cs => by
    rw [fixedPointsOf, List.mem_append, mem_fixedPointsOf q cs]
    by_cases h : c.isAbsolute = true <;> simp [h]

mutual
theorem repeats_of_mem {q : Qty} : ∀ (c : Cond α κ W), q ∈ c.intervals → Repeats c q
  | .leaf o k, h => by
    cases k with
    | timeInterval r st fi si ei =>
      cases r with
      | none => simp [Cond.intervals, Leaf.intervals] at h
      | some r => simp [Cond.intervals, Leaf.intervals] at h; subst h; exact .leaf
    | _ => simp [Cond.intervals, Leaf.intervals] at h
  | .all o args, h => by
    obtain ⟨c, hc, hr⟩ := repeatsL_of_mem args h
    exact .all hc hr
  | .any o args, h => by
    obtain ⟨c, hc, hr⟩ := repeatsL_of_mem args h
    exact .any hc hr
  | .not .., h => by simp [Cond.intervals] at h
  | .nwhen .., h => by simp [Cond.intervals] at h
  | .whileNot .., h => by simp [Cond.intervals] at h
theorem repeatsL_of_mem {q : Qty} : ∀ (cs : List (Cond α κ W)), q ∈ intervalsOf cs →
    ∃ c ∈ cs, Repeats c q
  | [], h => by simp [intervalsOf] at h
  | c :: cs, h => by
    rw [intervalsOf, List.mem_append] at h
    rcases h with h | h
    · split at h
      · exact ⟨c, by simp, repeats_of_mem c h⟩
      · cases h
    · obtain ⟨d, hd, hr⟩ := repeatsL_of_mem cs h
      exact ⟨d, by simp [hd], hr⟩
end

mutual
theorem mentions_of_mem {q : Qty} : ∀ (c : Cond α κ W), q ∈ c.fixedPoints → MentionsTime c q
  | .leaf o k, h => by
    cases k with
    | timeInterval r st fi si ei =>
      simp only [Cond.fixedPoints, Leaf.fixedPoints, intervalPoints, List.mem_append] at h
      rcases h with h | h
      · cases st with
        | none => simp at h
        | some p =>
          cases si with
          | false => simp at h
          | true => simp at h; subst h; exact .start
      · cases fi with
        | none => simp at h
        | some p =>
          cases ei with
          | false => simp at h
          | true => simp at h; subst h; exact .fin
    | timeTermination t incl =>
      cases incl with
      | false => simp [Cond.fixedPoints, Leaf.fixedPoints] at h
      | true => simp [Cond.fixedPoints, Leaf.fixedPoints] at h; subst h; exact .term
    | _ => simp [Cond.fixedPoints, Leaf.fixedPoints] at h
  | .all o args, h => by
    obtain ⟨c, hc, hr⟩ := mentionsL_of_mem args h
    exact .all hc hr
  | .any o args, h => by
    obtain ⟨c, hc, hr⟩ := mentionsL_of_mem args h
    exact .any hc hr
  | .not .., h => by simp [Cond.fixedPoints] at h
  | .nwhen .., h => by simp [Cond.fixedPoints] at h
  | .whileNot .., h => by simp [Cond.fixedPoints] at h
theorem mentionsL_of_mem {q : Qty} : ∀ (cs : List (Cond α κ W)), q ∈ fixedPointsOf cs →
    ∃ c ∈ cs, MentionsTime c q
  | [], h => by simp [fixedPointsOf] at h
  | c :: cs, h => by
    rw [fixedPointsOf, List.mem_append] at h
    rcases h with h | h
    · split at h
      · exact ⟨c, by simp, mentions_of_mem c h⟩
      · cases h
    · obtain ⟨d, hd, hr⟩ := mentionsL_of_mem cs h
      exact ⟨d, by simp [hd], hr⟩
end

theorem mem_of_repeats {q : Qty} {c : Cond α κ W} (h : Repeats c q) :
    c.isAbsolute = true ∧ q ∈ c.intervals := by
  induction h with
  | leaf => exact ⟨rfl, by simp [Cond.intervals, Leaf.intervals]⟩
  | all hc _ ih =>
    exact ⟨(mem_anyAbsolute _).mpr ⟨_, hc, ih.1⟩, (mem_intervalsOf _ _).mpr ⟨_, hc, ih⟩⟩
  | any hc _ ih =>
    exact ⟨(mem_anyAbsolute _).mpr ⟨_, hc, ih.1⟩, (mem_intervalsOf _ _).mpr ⟨_, hc, ih⟩⟩

theorem mem_of_mentions {q : Qty} {c : Cond α κ W} (h : MentionsTime c q) :
    c.isAbsolute = true ∧ q ∈ c.fixedPoints := by
  induction h with
  | start => exact ⟨rfl, by simp [Cond.fixedPoints, Leaf.fixedPoints, intervalPoints]⟩
  | fin => exact ⟨rfl, by simp [Cond.fixedPoints, Leaf.fixedPoints, intervalPoints]⟩
  | term => exact ⟨rfl, by simp [Cond.fixedPoints, Leaf.fixedPoints]⟩
  | all hc _ ih =>
    exact ⟨(mem_anyAbsolute _).mpr ⟨_, hc, ih.1⟩, (mem_fixedPointsOf _ _).mpr ⟨_, hc, ih⟩⟩
  | any hc _ ih =>
    exact ⟨(mem_anyAbsolute _).mpr ⟨_, hc, ih.1⟩, (mem_fixedPointsOf _ _).mpr ⟨_, hc, ih⟩⟩

theorem mem_absoluteConds (s : Sys α κ W) (a : RunArgs α κ W) (c : Cond α κ W) :
    c ∈ s.absoluteConds a ↔ InForce s a c ∧ c.isAbsolute = true := by
  unfold Sys.absoluteConds InForce
  simp only [List.mem_filter, List.mem_append, List.mem_map, List.mem_cons, Prod.exists,
    exists_eq_right]

theorem repeatUsed_iff (s : Sys α κ W) (a : RunArgs α κ W) (q : Qty) :
    RepeatUsed s a q ↔ ∃ c ∈ s.absoluteConds a, q ∈ c.intervals := by
  constructor
  · rintro ⟨c, hc, hr⟩
    exact ⟨c, (mem_absoluteConds s a c).mpr ⟨hc, (mem_of_repeats hr).1⟩, (mem_of_repeats hr).2⟩
  · rintro ⟨c, hc, hq⟩
    exact ⟨c, ((mem_absoluteConds s a c).mp hc).1, repeats_of_mem c hq⟩

theorem timeUsed_iff (s : Sys α κ W) (a : RunArgs α κ W) (q : Qty) :
    TimeUsed s a q ↔ ∃ c ∈ s.absoluteConds a, q ∈ c.fixedPoints := by
  constructor
  · rintro ⟨c, hc, hr⟩
    exact ⟨c, (mem_absoluteConds s a c).mpr ⟨hc, (mem_of_mentions hr).1⟩, (mem_of_mentions hr).2⟩
  · rintro ⟨c, hc, hq⟩
    exact ⟨c, ((mem_absoluteConds s a c).mp hc).1, mentions_of_mem c hq⟩

/-! ## The interval -/

/-- The times that determine the interval. -/
def Determines (s : Sys α κ W) (a : RunArgs α κ W) (q : Qty) : Prop :=
  RepeatUsed s a q ∨ (s.mode = .exactTime ∧ TimeUsed s a q)

/-- The number of parts into which the greatest common divisor is cut. -/
def parts (s : Sys α κ W) : Nat :=
  match s.mode with
  | .standard => s.queue.length
  | .exactTime => 1

theorem absoluteUnit_spec {s : Sys α κ W} {a : RunArgs α κ W} {u : Rat}
    (h : s.absoluteUnit (s.absoluteConds a) = .ok u) :
    ((¬ ∃ q, Determines s a q) ∧ u = s.defaultUnit) ∨
    ((∃ q, Determines s a q) ∧ parts s ≠ 0 ∧ IsGcd (Determines s a) ((parts s : Rat) * u)) := by
  have hmem : ∀ q, q ∈ ((s.absoluteConds a).flatMap fun c =>
      c.intervals ++ (if s.mode = Mode.exactTime then c.fixedPoints else [])) ↔ Determines s a q := by
    intro q
    rw [List.mem_flatMap]
    unfold Determines
    rw [repeatUsed_iff, timeUsed_iff]
    by_cases hm : s.mode = Mode.exactTime
    · simp only [hm, if_true, List.mem_append, true_and]
      constructor
      · rintro ⟨c, hc, h | h⟩
        · exact .inl ⟨c, hc, h⟩
        · exact .inr ⟨c, hc, h⟩
      · rintro (⟨c, hc, h⟩ | ⟨c, hc, h⟩)
        · exact ⟨c, hc, .inl h⟩
        · exact ⟨c, hc, .inr h⟩
    · simp only [hm, if_false, List.append_nil, false_and, or_false]
  unfold Sys.absoluteUnit at h
  generalize hqs : ((s.absoluteConds a).flatMap fun c =>
      c.intervals ++ (if s.mode = Mode.exactTime then c.fixedPoints else [])) = qs at h hmem
  dsimp only at h
  split at h
  · rename_i hn
    cases h
    refine .inl ⟨?_, rfl⟩
    rintro ⟨q, hq⟩
    rw [← hmem, hn] at hq; cases hq
  · rename_i hn
    replace h : (if ((parts s : Nat) : Rat) = 0 then Except.error Err.zeroDivisionError
        else Except.ok ((Sys.gcdIn (Sys.minExp qs) qs : Rat) / ((parts s : Nat) : Rat) *
          (10 : Rat) ^ Sys.minExp qs)) = Except.ok u := by
      unfold parts
      cases hm : s.mode <;> simp only [hm] at h ⊢ <;> exact h
    split at h
    · cases h
    · rename_i hne
      cases h
      refine .inr ⟨?_, fun e => hne (by rw [e]; rfl), ?_⟩
      · cases qs with
        | nil => exact absurd rfl hn
        | cons q qs => exact ⟨q, (hmem q).mp (by simp)⟩
      · have hg := gcdIn_isGcd (Sys.minExp qs) qs (minExp_le qs)
        have e : ((parts s : Nat) : Rat) * ((Sys.gcdIn (Sys.minExp qs) qs : Rat) / (parts s : Rat) *
            (10 : Rat) ^ Sys.minExp qs) = (Sys.gcdIn (Sys.minExp qs) qs : Rat) * (10 : Rat) ^ Sys.minExp qs := by
          have := Rat.div_mul_cancel (a := (Sys.gcdIn (Sys.minExp qs) qs : Rat)) hne
          grind
        rw [e]
        refine ⟨hg.1, fun q hq => hg.2.1 q ((hmem q).mpr hq), fun d hd => hg.2.2 d fun q hq =>
          hd q ((hmem q).mp hq)⟩

end GS
