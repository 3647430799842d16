import Verif.AbsRun
import Verif.Spec.Graph
/-!
# Nodes that repeat at absolute intervals: lemmas
-/

set_option linter.unusedSectionVars false

namespace GS
open Spec Props
variable {α κ W : Type _} [DecidableEq α] [DecidableEq κ]
variable {a : RunArgs α κ W} {abs : Bool} {s s' s0 s1 : Sys α κ W} {pc pc' : PC α}
  {ev : Option (Event α)} {E : Sys α κ W → Sys α κ W → Prop} {h : History α κ W}

/-! ## Arithmetic -/

theorem ratMod_eq_zero {x r : Rat} (hr : r ≠ 0) : ratMod x r = 0 ↔ Multiple x r := by
  unfold ratMod
  constructor
  · intro h
    exact ⟨(x / r).floor, by grind⟩
  · rintro ⟨k, rfl⟩
    have : (k : Rat) * r / r = k := by grind
    rw [this, Rat.floor_intCast]
    grind

theorem intCast_inj' {i j : Int} (h : (i : Rat) = j) : i = j := by
  have h1 : i ≤ j := Rat.intCast_le_intCast.mp (by rw [h]; exact Rat.le_refl)
  have h2 : j ≤ i := Rat.intCast_le_intCast.mp (by rw [h]; exact Rat.le_refl)
  omega

/-- A positive multiple of a non-negative number is a positive natural multiple. -/
theorem Spec.Multiple.pos {r g : Rat} (h : Multiple r g) (hr : 0 < r) (hg : 0 ≤ g) :
    0 < g ∧ ∃ ρ : Nat, 0 < ρ ∧ r = ρ * g := by
  obtain ⟨k, rfl⟩ := h
  have hg' : 0 < g := by
    have : g ≠ 0 := by rintro rfl; simp at hr
    grind
  refine ⟨hg', ?_⟩
  have hk : 0 < k := by
    rcases Int.lt_or_le 0 k with h | h
    · exact h
    · have h1 : (k : Rat) ≤ 0 := by
        have := Rat.intCast_le_intCast.mpr h
        simpa using this
      have := Rat.mul_le_mul_of_nonneg_right h1 hg
      rw [Rat.zero_mul] at this
      exact absurd hr (by grind)
  refine ⟨k.toNat, by omega, ?_⟩
  have e : ((k.toNat : Nat) : Rat) = ((k.toNat : Int) : Rat) := rfl
  rw [e, Int.toNat_of_nonneg (by omega)]

/-- Selecting from a list the positions of a residue class, from the first one on. -/
theorem select_progression {β : Type _} (ys : List β) (sel : β → Option Rat) (P : Nat → Prop)
    (tm : Nat → Rat) (D : Nat) (hD : 0 < D)
    (hsel : ∀ k y, ys[k]? = some y → (P k → sel y = some (tm k)) ∧ (¬ P k → sel y = none))
    (hP : ∀ j k, P j → j ≤ k → (P k ↔ (k - j) % D = 0)) :
    (ys.filterMap sel = [] ∧ ∀ k < ys.length, ¬ P k) ∨
    ∃ k0 m, ys.filterMap sel = (List.range (m + 1)).map (fun j => tm (k0 + j * D)) ∧ P k0 ∧
      k0 + m * D < ys.length ∧ ys.length ≤ k0 + (m + 1) * D := by
  have key : ∀ n, n ≤ ys.length →
      ((ys.take n).filterMap sel = [] ∧ ∀ k < n, ¬ P k) ∨
      ∃ k0 m, (ys.take n).filterMap sel = (List.range (m + 1)).map (fun j => tm (k0 + j * D)) ∧ P k0 ∧
        k0 + m * D < n ∧ n ≤ k0 + (m + 1) * D := by
    intro n
    induction n with
    | zero => intro _; exact .inl ⟨rfl, by simp⟩
    | succ n ih =>
      intro hn
      have hlt : n < ys.length := by omega
      obtain ⟨y, hy⟩ : ∃ y, ys[n]? = some y := ⟨_, List.getElem?_eq_getElem hlt⟩
      have ht : ys.take (n + 1) = ys.take n ++ [y] := by
        rw [List.take_add_one, hy]; rfl
      rw [ht, List.filterMap_append]
      obtain ⟨p1, p2⟩ := hsel n y hy
      have one : ∀ {o}, sel y = o → [y].filterMap sel = o.toList := by
        intro o ho; cases o <;> simp [ho]
      rcases ih (by omega) with ⟨h1, h2⟩ | ⟨k0, m, h1, h2, h3, h4⟩
      · by_cases hp : P n
        · right
          refine ⟨n, 0, ?_, hp, by omega, by omega⟩
          rw [h1, one (p1 hp)]; simp
        · left
          refine ⟨by rw [h1, one (p2 hp)]; rfl, fun k hk => ?_⟩
          rcases Nat.lt_or_ge k n with h | h
          · exact h2 k h
          · have : k = n := by omega
            subst this; exact hp
      · right
        have hk : k0 ≤ n := by omega
        by_cases hp : P n
        · have hm := (hP k0 n h2 hk).mp hp
          obtain ⟨c, hc⟩ := Nat.dvd_of_mod_eq_zero hm
          have hn' : n = k0 + (m + 1) * D := by
            have h5 : n = k0 + D * c := by omega
            have : m < c := by
              rcases Nat.lt_or_ge m c with h | h
              · exact h
              · exfalso
                have := Nat.mul_le_mul_left D h
                rw [Nat.mul_comm D m] at this
                omega
            have := Nat.mul_le_mul_left D this
            rw [Nat.mul_comm D (m + 1)] at this
            have e : (m + 1) * D = m.succ * D := rfl
            omega
          refine ⟨k0, m + 1, ?_, h2, by omega, ?_⟩
          · rw [h1, one (p1 hp), List.range_succ (n := m + 1), List.map_append]
            simp [hn']
          · have e : (m + 1 + 1) * D = (m + 1) * D + D := Nat.succ_mul _ _
            omega
        · refine ⟨k0, m, ?_, h2, by omega, ?_⟩
          · rw [h1, one (p2 hp)]; simp
          · have : n ≠ k0 + (m + 1) * D := by
              intro e
              apply hp
              rw [hP k0 n h2 hk]
              have : n - k0 = D * (m + 1) := by rw [e, Nat.mul_comm]; omega
              rw [this, Nat.mul_mod_right]
            omega
  have := key ys.length (Nat.le_refl _)
  rw [List.take_length] at this
  exact this

/-- The times at which a repeating node is due form a residue class. -/
theorem due_class {T u g r : Rat} {L ρ i : Nat} (hL : 0 < L) (hg : 0 < g) (hgu : g = L * u)
    (hr : r = ρ * g) (j k : Nat)
    (hj : j % L = i ∧ Multiple (T + j * u - i * u) r) (hjk : j ≤ k) :
    (k % L = i ∧ Multiple (T + k * u - i * u) r) ↔ (k - j) % (ρ * L) = 0 := by
  obtain ⟨d, rfl⟩ : ∃ d, k = j + d := ⟨k - j, by omega⟩
  have hd : j + d - j = d := by omega
  rw [hd]
  constructor
  · rintro ⟨h1, h2⟩
    have hmod : d % L = 0 := by
      have := Nat.sub_mod_eq_zero_of_mod_eq (show (j + d) % L = j % L by rw [h1, hj.1])
      rwa [hd] at this
    obtain ⟨m, rfl⟩ := Nat.dvd_of_mod_eq_zero hmod
    have h6 := h2.sub hj.2
    have e : T + ((j + L * m : Nat) : Rat) * u - i * u - (T + j * u - i * u) = m * g := by
      rw [Rat.natCast_add, Rat.natCast_mul, hgu]; grind
    rw [e] at h6
    obtain ⟨z, hz⟩ := h6
    rw [hr] at hz
    have hz' : (m : Rat) = z * ρ := by
      have hgne : g ≠ 0 := by grind
      have : (m : Rat) * g = (z * ρ) * g := by rw [hz]; grind
      have h7 := congrArg (fun x => x / g) this
      grind
    have hz2 : ((m : Int) : Rat) = ((z * (ρ : Int) : Int) : Rat) := by
      rw [Rat.intCast_mul]; exact hz'
    have := intCast_inj' hz2
    have hdvd : (ρ : Int) ∣ (m : Int) := ⟨z, by rw [this, Int.mul_comm]⟩
    obtain ⟨c, rfl⟩ := Int.natCast_dvd_natCast.mp hdvd
    have : L * (ρ * c) = ρ * L * c := by rw [← Nat.mul_assoc, Nat.mul_comm L ρ]
    rw [this, Nat.mul_mod_right]
  · intro h
    obtain ⟨c, rfl⟩ := Nat.dvd_of_mod_eq_zero h
    refine ⟨?_, ?_⟩
    · rw [Nat.mul_assoc, Nat.mul_comm ρ, Nat.mul_assoc, Nat.add_mul_mod_self_left]; exact hj.1
    · have e : T + ((j + ρ * L * c : Nat) : Rat) * u - i * u = (T + j * u - i * u) + ((c : Int) : Rat) * r := by
        have hc : ((c : Int) : Rat) = (c : Rat) := rfl
        rw [Rat.natCast_add, Rat.natCast_mul, Rat.natCast_mul, hr, hgu, hc]; grind
      rw [e]
      exact hj.2.add ((Multiple.refl r).imul c)

/-! ## The condition -/

theorem layerOffset_at {q : List (List α)} {n : α} {i : Nat} (u : Rat) (hi : At q i n)
    (hu : ∀ j, At q j n → j = i) : layerOffset (some n) u q = some (i * u) := by
  unfold layerOffset
  have gen : ∀ (q : List (List α)) (b : Nat) (off : Option Rat),
      (∀ j, At q j n → b + j = i) → (off = some (i * u) ∨ ∃ j, At q j n) →
      (q.zipIdx b).foldl (fun off p => match some n with
        | some o => if o ∈ p.1 then some (p.2 * u) else off
        | none => off) off = some ((i : Rat) * u) := by
    intro q
    induction q with
    | nil =>
      intro b off _ h
      rcases h with h | ⟨j, l, hj, _⟩
      · simpa using h
      · simp at hj
    | cons l q ih =>
      intro b off hall hex
      rw [List.zipIdx_cons, List.foldl_cons]
      apply ih
      · intro j hj
        obtain ⟨l', h1, h2⟩ := hj
        have := hall (j + 1) ⟨l', by simpa using h1, h2⟩
        omega
      · dsimp only
        by_cases hn : n ∈ l
        · rw [if_pos hn]
          left
          have := hall 0 ⟨l, rfl, hn⟩
          rw [Nat.add_zero] at this
          rw [this]
        · rw [if_neg hn]
          rcases hex with h | ⟨j, l', h1, h2⟩
          · exact .inl h
          · right
            cases j with
            | zero => simp at h1; subst h1; exact absurd h2 hn
            | succ j => exact ⟨j, l', by simpa using h1, h2⟩
  exact gen q 0 none (by simpa using hu) (.inr ⟨i, hi⟩)

/-- What `TimeInterval(repeat=r)` of a node evaluates to. -/
theorem eval_repeat {v : View α κ W} {st : Store α κ} {id : Option κ} {o : OId} {n : α} {r : Qty}
    {i : Nat} {si ei : Bool} (ho : st.owner o = some n) (hr : r.val ≠ 0) (hi : At v.queue i n)
    (hu : ∀ j, At v.queue j n → j = i) :
    ∃ b, eval v id (.leaf o (.timeInterval (some r) none none si ei)) st = (.ok b, st) ∧
      (b = true ↔ Multiple ((v.clock id).time.absolute - i * (v.clock id).time.absolute_interval) r.val) := by
  refine ⟨_, by
    simp only [eval, evalLeaf, timeIntervalFunc, ho, layerOffset_at _ hi hu, repeatOk, if_neg hr]
    rfl, ?_⟩
  simp only [Bool.and_true, decide_eq_true_eq]
  exact ratMod_eq_zero hr

end GS
