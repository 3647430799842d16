import Verif.Spec.Units
import Verif.AbsUnit
/-!
# Durations as they are written: lemmas
-/

set_option linter.unusedSectionVars false

namespace GS
open Spec

theorem roundEven_int (k : Int) : roundEven (k : Rat) = k := by
  unfold roundEven
  rw [Rat.floor_intCast]
  have : (k : Rat) - (k : Rat) = 0 := by grind
  rw [this, if_pos (by grind)]

theorem roundEven_err (x : Rat) : -(1 / 2) ≤ (roundEven x : Rat) - x ∧ (roundEven x : Rat) - x ≤ 1 / 2 := by
  have h1 := Rat.floor_le (a := x)
  have h2 := Rat.lt_floor (x := x)
  unfold roundEven
  have e1 : ((1 : Int) : Rat) = 1 := rfl
  split
  · constructor <;> grind
  · split
    · rw [Rat.intCast_add, e1]; constructor <;> grind
    · split
      · constructor <;> grind
      · rw [Rat.intCast_add, e1]; constructor <;> grind

theorem round8_exact {x : Rat} (h : Whole (x * 10 ^ 8)) : round8 x = x := by
  obtain ⟨k, hk⟩ := h
  unfold round8
  rw [hk, roundEven_int, ← hk]
  exact Rat.mul_div_cancel (by decide)

theorem round8_err (x : Rat) :
    -(1 / (2 * 10 ^ 8)) ≤ round8 x - x ∧ round8 x - x ≤ 1 / (2 * 10 ^ 8) := by
  have h := roundEven_err (x * 10 ^ 8)
  have e : round8 x - x = ((roundEven (x * 10 ^ 8) : Rat) - x * 10 ^ 8) / 10 ^ 8 := by
    unfold round8; grind
  rw [e]
  constructor <;> grind

theorem whole_of_den {r : Rat} (h : r.den = 1) : r = (r.num : Rat) := by
  apply Rat.ext
  · simp
  · simpa using h

theorem den_of_whole {r : Rat} (h : Whole r) : r.den = 1 := by
  obtain ⟨k, rfl⟩ := h; exact Rat.den_intCast _

theorem TimeQty.to_val {q : TimeQty} {u : Rat} (h : u ≠ 0) : (q.to u).val = q.val := by
  unfold TimeQty.to TimeQty.val; exact Rat.div_mul_cancel h

theorem quantityAsInteger_some {q p : TimeQty} (h : quantityAsInteger q = some p) :
    p.u = q.u ∧ p.m = round8 q.m ∧ Whole p.m := by
  unfold quantityAsInteger at h
  split at h
  · rename_i hd
    cases h
    exact ⟨rfl, (whole_of_den hd).symm, ⟨_, rfl⟩⟩
  · cases h

theorem quantityAsInteger_none {q : TimeQty} (h : quantityAsInteger q = none) :
    ¬ Whole (round8 q.m) := by
  unfold quantityAsInteger at h
  split at h
  · cases h
  · rename_i hd
    exact fun hw => hd (den_of_whole hw)

/-- Where the result of the search comes from. -/
theorem reduce_cases (units : List Rat) (q : TimeQty) :
    (reduceToInteger units q = q ∧ ∀ u ∈ units, u ≤ q.u → quantityAsInteger (q.to u) = none) ∨
    ∃ l u r, units.filter (fun u => u ≤ q.u) = l ++ u :: r ∧
      quantityAsInteger (q.to u) = some (reduceToInteger units q) ∧
      ∀ v ∈ l, quantityAsInteger (q.to v) = none := by
  unfold reduceToInteger
  cases h : (units.filter fun u => u ≤ q.u).findSome? fun u => quantityAsInteger (q.to u) with
  | none =>
    refine .inl ⟨rfl, fun u hu hle => ?_⟩
    rw [List.findSome?_eq_none_iff] at h
    exact h u (List.mem_filter.mpr ⟨hu, by simpa using hle⟩)
  | some p =>
    obtain ⟨l, u, r, h1, h2, h3⟩ := List.findSome?_eq_some_iff.mp h
    exact .inr ⟨l, u, r, h1, h2, h3⟩

theorem getQuantity_written {reg : Registry} {n : DurArg} {unit : UnitArg} {m u : Rat}
    (h : Written reg n unit m u) : getQuantity reg unit n = .ok ⟨m, u⟩ := by
  have key : ∀ {unit : UnitArg} {u : Rat}, UnitIs reg unit u → unitOf reg unit = .ok u := by
    intro unit u h
    cases unit with
    | unit v => exact congrArg _ h
    | name s => simp only [unitOf, show reg.named s = some u from h]
  cases h with
  | number h => simp only [getQuantity, timesUnit, key h]
  | digits h1 h2 => simp only [getQuantity, h1, timesUnit, key h2]
  | text h => simp only [getQuantity, h]
  | quantity => rfl

theorem parse_written {reg : Registry} {n : DurArg} {unit : UnitArg} {m u : Rat}
    (h : Written reg n unit m u) :
    parseAbsoluteUnit reg (some n) unit = .ok (some (reduceToInteger reg.units ⟨m, u⟩)) := by
  simp only [parseAbsoluteUnit, getQuantity_written h]

/-! ## Powers of ten -/

theorem tenPow_add (a : Nat) : ∀ b : Nat, (10 : Rat) ^ (a + b) = 10 ^ a * 10 ^ b
  | 0 => by rw [Nat.add_zero, Rat.pow_zero, Rat.mul_one]
  | b + 1 => by rw [← Nat.add_assoc, Rat.pow_succ, tenPow_add a b, Rat.pow_succ, Rat.mul_assoc]


theorem log10Floor_pow : ∀ (k fuel : Nat), k ≤ fuel → log10Floor fuel (10 ^ k) = k
  | 0, 0, _ => rfl
  | 0, f + 1, _ => by simp [log10Floor]
  | k + 1, f + 1, h => by
    unfold log10Floor
    have h1 : ¬ 10 ^ (k + 1) < 10 := by
      have := Nat.pow_pos (n := k) (show 0 < 10 by decide); rw [Nat.pow_succ]; omega
    rw [if_neg h1, Nat.pow_succ, Nat.mul_div_cancel _ (by decide), log10Floor_pow k f (by omega)]

theorem roundLog10_pow (k : Nat) : roundLog10 (10 ^ k) = k := by
  have e : ((10 : Rat) ^ k * 10 ^ k).floor.toNat = 10 ^ (2 * k) := by
    have : ((10 : Rat) ^ k * 10 ^ k) = (((10 ^ (2 * k) : Nat) : Int) : Rat) := by
      rw [← tenPow_add]
      have : k + k = 2 * k := by omega
      rw [this]
      have h : (((10 ^ (2 * k) : Nat) : Int) : Rat) = ((10 ^ (2 * k) : Nat) : Rat) := rfl
      rw [h, Rat.natCast_pow]; rfl
    rw [this, Rat.floor_intCast]; exact Int.toNat_natCast _
  unfold roundLog10
  rw [e, log10Floor_pow (2 * k) _ (Nat.le_of_lt (Nat.lt_pow_self (by decide)))]
  omega

theorem tdiv_int (k : Int) : (k : Rat).num.tdiv (k : Rat).den = k := by simp

theorem ten_pos (k : Nat) : (0 : Rat) < 10 ^ k := Rat.pow_pos (by decide)

theorem pow_sub {a b : Nat} (h : b ≤ a) : (10 : Rat) ^ a / 10 ^ b = 10 ^ (a - b) := by
  have : (10 : Rat) ^ a = 10 ^ (a - b) * 10 ^ b := by rw [← tenPow_add]; congr 1; omega
  rw [this]; exact Rat.mul_div_cancel (Rat.ne_of_gt (ten_pos b))

theorem pow_min (a b : Nat) : min ((10 : Rat) ^ a) (10 ^ b) = 10 ^ (min a b) := by
  have mono : ∀ {a b : Nat}, a ≤ b → (10 : Rat) ^ a ≤ 10 ^ b := by
    intro a b h
    have e : (10 : Rat) ^ b = ((10 ^ (b - a) : Nat) : Rat) * 10 ^ a := by
      rw [Rat.natCast_pow, show ((10 : Nat) : Rat) = 10 from rfl, ← tenPow_add]; congr 1; omega
    have h1 : (1 : Rat) ≤ ((10 ^ (b - a) : Nat) : Rat) := by
      have : 1 ≤ 10 ^ (b - a) := Nat.pow_pos (by decide)
      exact_mod_cast this
    have := Rat.mul_le_mul_of_nonneg_right h1 (Rat.le_of_lt (ten_pos a))
    rw [e]; grind
  rcases Nat.le_total a b with h | h
  · rw [Nat.min_eq_left h]; exact if_pos (mono h)
  · rw [Nat.min_eq_right h]; 
    show ite ((10 : Rat) ^ a ≤ 10 ^ b) _ _ = _
    have := mono h
    split
    · exact Rat.le_antisymm (by assumption) this
    · rfl

theorem minUnit_pow : ∀ (qs : List Qty), minUnit (qs.map Qty.toTime) = 10 ^ Sys.minExp qs
  | [] => rfl
  | [q] => rfl
  | q :: p :: qs => by
    have ih := minUnit_pow (p :: qs)
    show min ((10 : Rat) ^ q.e) (minUnit ((p :: qs).map Qty.toTime)) = 10 ^ (min q.e (Sys.minExp (p :: qs)))
    rw [ih, pow_min]

theorem inMinUnit_pow {emin : Nat} (q : Qty) (h : emin ≤ q.e) :
    inMinUnit (10 ^ emin) q.toTime = q.m * 10 ^ (q.e - emin) := by
  unfold inMinUnit Qty.toTime
  rw [pow_sub h, roundLog10_pow, tdiv_int]

theorem gcdOf_pow (emin : Nat) : ∀ (qs : List Qty), (∀ q ∈ qs, emin ≤ q.e) → ∀ g,
    (qs.map Qty.toTime).foldl (fun g q => Nat.gcd g (inMinUnit (10 ^ emin) q).natAbs) g =
    qs.foldl (fun g q => Nat.gcd g (q.m.natAbs * 10 ^ (q.e - emin))) g
  | [], _, g => rfl
  | q :: qs, h, g => by
    rw [List.map_cons, List.foldl_cons, List.foldl_cons, inMinUnit_pow q (h q (by simp)),
      natAbs_split]
    exact gcdOf_pow emin qs (fun p hp => h p (by simp [hp])) _

/-- On whole multiples of powers of ten, the computation for any units is that of the
model of the scheduler. -/
theorem commonInterval_pow (qs : List Qty) :
    commonInterval (qs.map Qty.toTime) =
      (Sys.gcdIn (Sys.minExp qs) qs : Rat) * 10 ^ Sys.minExp qs := by
  unfold commonInterval gcdOf
  rw [minUnit_pow, gcdOf_pow _ qs (minExp_le qs)]
  rfl

theorem Qty.toTime_val (q : Qty) : q.toTime.val = q.val := by
  unfold Qty.toTime TimeQty.val Qty.val
  rw [Rat.intCast_mul, Rat.intCast_pow]; rfl

end GS
