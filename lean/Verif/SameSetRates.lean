import Verif.Spec.SameSetRates
import Verif.Rates
import Verif.GoesFirst
/-!
# Nodes with rates in the same consideration set: the reference scheduler
-/

set_option linter.unusedSectionVars false

namespace GS
open Spec
variable {α κ W : Type _} [DecidableEq α] [DecidableEq κ]

/-! ## The choice from one set, when nodes become due by others of the set -/

section
variable {R : α → Past α → Bool} {L : List α} {p : Past α} {D : α → Prop} {dep : α → α → Prop}

/-- What is known of the nodes chosen so far: they are due, each after those it waits for. -/
structure Chosen (L : List α) (D : α → Prop) (dep : α → α → Prop) (x : List α) : Prop where
  nodup : x.Nodup
  sub : ∀ m ∈ x, m ∈ L
  due : ∀ m ∈ x, D m
  has : ∀ m ∈ x, ∀ d, dep m d → d ∈ x
  before : ∀ m ∈ x, ∀ d, dep m d → d ∉ since m x

theorem Chosen.snoc {x : List α} (h : Chosen L D dep x) {n : α} (hn : n ∈ L) (hx : n ∉ x) (hD : D n)
    (hd : ∀ d, dep n d → d ∈ x) : Chosen L D dep (x ++ [n]) := by
  constructor
  · rw [List.nodup_append]
    exact ⟨h.nodup, by simp, fun a ha b hb e => hx (by rw [List.mem_singleton.1 hb] at e; exact e ▸ ha)⟩
  · intro m hm
    rcases List.mem_append.1 hm with hm | hm
    · exact h.sub m hm
    · rw [List.mem_singleton.1 hm]; exact hn
  · intro m hm
    rcases List.mem_append.1 hm with hm | hm
    · exact h.due m hm
    · rw [List.mem_singleton.1 hm]; exact hD
  · intro m hm d hmd
    rcases List.mem_append.1 hm with hm | hm
    · exact List.mem_append_left _ (h.has m hm d hmd)
    · rw [List.mem_singleton.1 hm] at hmd
      exact List.mem_append_left _ (hd d hmd)
  · intro m hm d hmd
    rw [since_snoc]
    split
    · simp
    · rename_i hne
      rcases List.mem_append.1 hm with hm | hm
      · simp only [List.mem_append, List.mem_singleton, not_or]
        exact ⟨h.before m hm d hmd, fun e => hx (e ▸ h.has m hm d hmd)⟩
      · exact absurd (List.mem_singleton.1 hm).symm hne

variable (hsound : ∀ n ∈ L, ∀ x, Chosen L D dep x → n ∉ x → R n { p with next := x } = true →
    D n ∧ ∀ d, dep n d → d ∈ x)
  (hcomplete : ∀ n ∈ L, D n → ∀ x, Chosen L D dep x → n ∉ x → (∀ d, dep n d → d ∈ x) →
    R n { p with next := x } = true)
include hsound hcomplete

theorem goThrough_chosen : ∀ (ns x : List α), (∀ n ∈ ns, n ∈ L) → Chosen L D dep x →
    ∃ y, goThrough R ns { p with next := x } = { p with next := y } ∧ Chosen L D dep y ∧
      (∀ m ∈ x, m ∈ y) ∧ x.length ≤ y.length ∧
      ∀ n ∈ ns, D n → (∀ d, dep n d → d ∈ x) → n ∈ y
  | [], x, _, hx => ⟨x, rfl, hx, fun _ h => h, Nat.le_refl _, by simp⟩
  | n :: ns, x, hns, hx => by
    have hn := hns n (by simp)
    have hns' : ∀ m ∈ ns, m ∈ L := fun m hm => hns m (by simp [hm])
    simp only [goThrough]
    by_cases h1 : n ∈ x
    · rw [if_pos h1]
      obtain ⟨y, i1, i2, i3, i4, i5⟩ := goThrough_chosen ns x hns' hx
      refine ⟨y, i1, i2, i3, i4, fun m hm hD hd => ?_⟩
      rcases List.mem_cons.1 hm with rfl | hm
      · exact i3 _ h1
      · exact i5 m hm hD hd
    · rw [if_neg h1]
      by_cases h2 : R n { p with next := x } = true
      · rw [if_pos h2]
        obtain ⟨g1, g2⟩ := hsound n hn x hx h1 h2
        obtain ⟨y, i1, i2, i3, i4, i5⟩ := goThrough_chosen ns (x ++ [n]) hns' (hx.snoc hn h1 g1 g2)
        refine ⟨y, i1, i2, fun m hm => i3 m (List.mem_append_left _ hm), ?_, fun m hm hD hd => ?_⟩
        · simp at i4; omega
        · rcases List.mem_cons.1 hm with rfl | hm
          · exact i3 _ (by simp)
          · exact i5 m hm hD fun d hd' => List.mem_append_left _ (hd d hd')
      · rw [if_neg h2]
        obtain ⟨y, i1, i2, i3, i4, i5⟩ := goThrough_chosen ns x hns' hx
        refine ⟨y, i1, i2, i3, i4, fun m hm hD hd => ?_⟩
        rcases List.mem_cons.1 hm with rfl | hm
        · exact absurd (hcomplete m hn hD x hx h1 hd) h2
        · exact i5 m hm hD hd

variable {depth : α → Nat} (hdep : ∀ n ∈ L, D n → ∀ d, dep n d → d ∈ L ∧ D d ∧ depth d < depth n)
include hdep

/-- A due node that was not chosen: there is one that does not wait for such a node. -/
theorem exists_ready {x : List α} : ∀ (k : Nat) (n : α), depth n ≤ k → n ∈ L → D n → n ∉ x →
    ∃ m ∈ L, D m ∧ m ∉ x ∧ ∀ d, dep m d → d ∈ x
  | k, n, hk, hn, hD, hx => by
    by_cases h : ∀ d, dep n d → d ∈ x
    · exact ⟨n, hn, hD, hx, h⟩
    · have : ∃ d, dep n d ∧ d ∉ x := by
        apply Classical.byContradiction
        intro h'
        exact h fun d hd => Classical.byContradiction fun hd' => h' ⟨d, hd, hd'⟩
      obtain ⟨d, hd, hdx⟩ := this
      obtain ⟨h1, h2, h3⟩ := hdep n hn hD d hd
      cases k with
      | zero => omega
      | succ k => exact exists_ready k d (by omega) h1 h2 hdx

theorem goRound_chosen : ∀ (k : Nat) (x : List α), Chosen L D dep x →
    ∃ y, goRound R L k { p with next := x } = { p with next := y } ∧ Chosen L D dep y ∧
      ((∀ n ∈ L, D n → n ∈ y) ∨ x.length + k ≤ y.length)
  | 0, x, hx => ⟨x, rfl, hx, .inr (by omega)⟩
  | k + 1, x, hx => by
    obtain ⟨y, i1, i2, i3, i4, i5⟩ := goThrough_chosen hsound hcomplete L x (fun _ h => h) hx
    simp only [goRound]
    rw [i1]
    obtain ⟨z, j1, j2, j3⟩ := goRound_chosen k y i2
    refine ⟨z, j1, j2, ?_⟩
    rcases j3 with j3 | j3
    · exact .inl j3
    · by_cases h : ∀ n ∈ L, D n → n ∈ x
      · -- nothing is missing
        refine .inl fun n hn hD => ?_
        have : ∀ m ∈ y, m ∈ z := by
          clear j3
          have key : ∀ (k : Nat) (y : List α), Chosen L D dep y → ∀ z,
              goRound R L k { p with next := y } = { p with next := z } → ∀ m ∈ y, m ∈ z := by
            intro k
            induction k with
            | zero =>
              intro y _ z h m hm
              simp only [goRound] at h
              injection h with _ _ _ h
              exact h ▸ hm
            | succ k ih =>
              intro y hy z h m hm
              obtain ⟨y', g1, g2, g3, _⟩ := goThrough_chosen hsound hcomplete L y (fun _ h => h) hy
              simp only [goRound] at h
              rw [g1] at h
              exact ih y' g2 z h m (g3 m hm)
          exact key k y i2 z j1
        exact this n (i3 n (h n hn hD))
      · have : ∃ n, n ∈ L ∧ D n ∧ n ∉ x := by
          apply Classical.byContradiction
          intro h'
          exact h fun n hn hD => Classical.byContradiction fun hx => h' ⟨n, hn, hD, hx⟩
        obtain ⟨n, hn, hD, hnx⟩ := this
        obtain ⟨m, g1, g2, g3, g4⟩ := exists_ready hsound hcomplete hdep (depth n) n (Nat.le_refl _) hn hD hnx
        have hmy := i5 m g1 g2 g4
        have hlt : x.length < y.length := by
          have := nodup_length_le (l := m :: x) (m := y) (List.nodup_cons.2 ⟨g3, hx.nodup⟩) (by
            intro a ha
            rcases List.mem_cons.1 ha with rfl | ha
            · exact hmy
            · exact i3 a ha)
          simp at this; omega
        exact .inr (by omega)

/-- All due nodes are chosen, and no others, each after those of the set it waits for. -/
theorem choice_chosen (hp : p.next = []) :
    Chosen L D dep (choice R L p) ∧ ∀ n, n ∈ choice R L p ↔ n ∈ L ∧ D n := by
  have e : ({ p with next := [] } : Past α) = p := by rw [← hp]
  obtain ⟨y, i1, i2, i3⟩ := goRound_chosen hsound hcomplete hdep (L.length + 1) []
    ⟨by simp, by simp, by simp, by simp, by simp⟩
  rw [e] at i1
  have hc : choice R L p = y := by unfold choice; rw [i1]
  rw [hc]
  refine ⟨i2, fun n => ⟨fun h => ⟨i2.sub n h, i2.due n h⟩, fun h => ?_⟩⟩
  rcases i3 with i3 | i3
  · exact i3 n h.1 h.2
  · have := nodup_length_le i2.nodup i2.sub
    simp at i3
    omega

end

theorem since_append_mem {n : α} (l x : List α) (h : n ∈ x) : since n (l ++ x) = since n x := by
  induction x using snocInd with
  | h0 => simp at h
  | h1 x y ih =>
    rw [← List.append_assoc, since_snoc, since_snoc]
    split
    · rfl
    · rename_i hne
      rcases List.mem_append.1 h with h | h
      · rw [ih h]
      · exact absurd (List.mem_singleton.1 h).symm hne

/-! ## Arithmetic -/

/-- `c` calls of a node with rate `b` since pass `r * q`; the node executes next in pass
`r * (q + 1)`. -/
theorem wait_sound {c k b r q : Nat} (hb : 1 ≤ b) (ha : k * b = r)
    (hc : k ≤ c) {e : Nat} (hu : c + r * q / b ≤ e / b) : r * (q + 1) ≤ e := by
  have h1 : r * q / b = k * q := by
    rw [← ha, Nat.mul_assoc, Nat.mul_comm b, ← Nat.mul_assoc]; exact Nat.mul_div_cancel _ hb
  rw [h1] at hu
  have h2 : k * (q + 1) ≤ e / b := by rw [Nat.mul_add, Nat.mul_one]; omega
  have h3 := (Nat.le_div_iff_mul_le hb).1 h2
  rw [← ha, Nat.mul_right_comm]; exact h3

theorem wait_exact {c k b r q e : Nat} (hb : 1 ≤ b) (ha : k * b = r)
    (hl : e / b ≤ c + r * q / b) (he : r * (q + 1) ≤ e) : k ≤ c := by
  have h1 : r * q / b = k * q := by
    rw [← ha, Nat.mul_assoc, Nat.mul_comm b, ← Nat.mul_assoc]; exact Nat.mul_div_cancel _ hb
  have h2 : k * (q + 1) ≤ e / b := by
    rw [Nat.le_div_iff_mul_le hb, Nat.mul_right_comm, ha]; exact he
  rw [h1] at hl
  rw [Nat.mul_add, Nat.mul_one] at h2
  omega

theorem wait_less {c k b r q e : Nat} (hb : 1 ≤ b) (ha : k * b < r)
    (hl : e / b ≤ c + r * q / b) (he : r * (q + 1) ≤ e + 1) : k ≤ c := by
  have h2 : r * q / b + k ≤ e / b := by
    rw [Nat.le_div_iff_mul_le hb, Nat.add_mul]
    have := Nat.div_mul_le_self (r * q) b
    have h6 : r * (q + 1) = r * q + r := by rw [Nat.mul_add, Nat.mul_one]
    omega
  omega

/-! ## The passes -/

/-- After the nodes in `l` have executed, where `e n` is the number of the pass in which the
set of `n` was considered last: the calls since a node executed are at least those in later
passes; and no more, if the node's rate is due to them. -/
def RateTally (nodes : List α) (waits : α → List (α × Nat)) (rate : α → Nat) (l : List α)
    (e : α → Nat) : Prop :=
  ∀ n ∈ nodes, ∀ x ∈ waits n,
    e x.1 / rate x.1 ≤ (since n l).count x.1 + rate n * (e n / rate n) / rate x.1 ∧
    (x.2 * rate x.1 = rate n →
      (since n l).count x.1 + rate n * (e n / rate n) / rate x.1 ≤ e x.1 / rate x.1)

section
variable {R : α → Past α → Bool} {S : Past α → Bool} {q : List (List α)} {nodes : List α}
variable {waits : α → List (α × Nat)} {rate depth : α → Nat}
variable (hqn : ∀ n, n ∈ q.flatten ↔ n ∈ nodes) (hnd : q.flatten.Nodup)
  (hR : ∀ n ∈ nodes, ∀ p : Past α, R n p =
    decide (∀ x ∈ waits n, x.2 ≤ (since n (p.inRun.flatten ++ p.next)).count x.1))
  (hrate : ∀ n ∈ nodes, rate n = slowest rate (waits n))
  (hw : ∀ n ∈ nodes, ∀ x ∈ waits n, x.1 ∈ nodes ∧ 1 ≤ x.2 ∧ GoesBefore q depth x.1 n)
include hqn hnd hR hrate hw

theorem rate_pos {n : α} (hn : n ∈ nodes) : 1 ≤ rate n := by
  rw [hrate n hn]; exact slowest_pos _ _

/-- One set, in pass `P`. -/
theorem set_rated {pre rest : List (List α)} {L : List α} (hq : q = pre ++ L :: rest) {P : Nat}
    (hP : 1 ≤ P) {p : Past α} (hp : p.next = [])
    (ht : RateTally nodes waits rate p.inRun.flatten fun n => if n ∈ pre.flatten then P else P - 1) :
    (∀ n, n ∈ choice R L p ↔ n ∈ L ∧ rate n ∣ P) ∧
    RateTally nodes waits rate (p.inRun.flatten ++ choice R L p)
      fun n => if n ∈ (pre ++ [L]).flatten then P else P - 1 := by
  have hLn : ∀ n ∈ L, n ∈ nodes := fun n hn => (hqn n).1 (by rw [hq]; simp [hn])
  have hnd' := hnd
  rw [hq, List.flatten_append, List.flatten_cons, List.nodup_append, List.nodup_append] at hnd'
  obtain ⟨_, ⟨_, _, hLr⟩, hpre⟩ := hnd'
  have hLpre : ∀ n ∈ L, n ∉ pre.flatten := fun n hn h => hpre n h n (by simp [hn]) rfl
  -- a node waited for is in the set or in an earlier one
  have hplace : ∀ n ∈ L, ∀ x ∈ waits n, x.1 ∈ pre.flatten ∨ (x.1 ∈ L ∧ depth x.1 < depth n) := by
    intro n hn x hx
    obtain ⟨_, _, i, j, hi, hj, hij⟩ := hw n (hLn n hn) x hx
    have hjL : At q pre.length n := ⟨L, by rw [hq]; simp, hn⟩
    have hjp : j = pre.length := at_unique hnd hj hjL
    rcases hij with hij | ⟨rfl, hij⟩
    · obtain ⟨l, hl, hxl⟩ := hi
      rw [hq, List.getElem?_append_left (by omega)] at hl
      exact .inl (List.mem_flatten.2 ⟨l, List.mem_of_getElem? hl, hxl⟩)
    · obtain ⟨l, hl, hxl⟩ := hi
      rw [hjp, hq] at hl
      simp at hl
      exact .inr ⟨hl ▸ hxl, hij⟩
  have hne : ∀ n ∈ nodes, ∀ x ∈ waits n, x.1 ≠ n := by
    intro n hn x hx e
    obtain ⟨_, _, i, j, hi, hj, hij⟩ := hw n hn x hx
    rw [e] at hi hij
    have := at_unique hnd hi hj
    rcases hij with h | h
    · omega
    · omega
  have hpos : ∀ n ∈ nodes, 1 ≤ rate n := fun n hn => rate_pos hqn hnd hR hrate hw hn
  have hmulsucc : ∀ r q : Nat, r * (q + 1) = r * q + r := fun r q => by rw [Nat.mul_add, Nat.mul_one]
  -- the last pass before `P` in which a node executed
  have hlast : ∀ n ∈ nodes, P - 1 < rate n * ((P - 1) / rate n + 1) := by
    intro n hn
    have h1 := Nat.div_add_mod (P - 1) (rate n)
    have h2 := Nat.mod_lt (P - 1) (hpos n hn)
    rw [hmulsucc]; omega
  have hdvd : ∀ n ∈ nodes, (rate n ∣ P ↔ rate n * ((P - 1) / rate n + 1) ≤ P) := by
    intro n hn
    have h0 := hpos n hn
    have h1 := hlast n hn
    have h2 := Nat.div_mul_le_self (P - 1) (rate n)
    rw [Nat.mul_comm] at h2
    constructor
    · rintro ⟨t, ht⟩
      have : (P - 1) / rate n < t := by
        apply Nat.lt_of_mul_lt_mul_left (a := rate n); omega
      have h4 : rate n * ((P - 1) / rate n + 1) ≤ rate n * t := Nat.mul_le_mul_left _ this
      omega
    · intro h
      exact ⟨(P - 1) / rate n + 1, by omega⟩
  -- the calls counted while the set is chosen
  have hcount : ∀ n ∈ L, ∀ x : List α, n ∉ x → ∀ d,
      (since n (({ p with next := x } : Past α).inRun.flatten ++ x)).count d =
      (since n p.inRun.flatten).count d + x.count d := by
    intro n hn x hx d
    rw [since_append_not_mem x _ hx, List.count_append]; rfl
  let dep : α → α → Prop := fun n d => d ∈ L ∧ ∃ k, (d, k) ∈ waits n ∧ k * rate d = rate n
  have hch := choice_chosen (R := R) (L := L) (p := p) (D := fun n => rate n ∣ P) (dep := dep)
    (depth := depth) (by
      -- sound
      intro n hn x hx hnx hr
      have hn' := hLn n hn
      rw [hR n hn'] at hr
      have hr := of_decide_eq_true hr
      have hq1 := hlast n hn'
      have key : ∀ y ∈ waits n, y.2 * rate y.1 = rate n →
          rate n * ((P - 1) / rate n + 1) ≤ P ∧ (y.1 ∈ L → y.1 ∈ x) := by
        intro y hy hyr
        obtain ⟨g1, g2⟩ := ht n hn' y hy
        have g2 := g2 hyr
        have hk := hr y hy
        have hyn := (hw n hn' y hy).1
        have hyp := hpos _ hyn
        dsimp only at hk
        rw [hcount n hn x hnx] at hk
        simp only [if_neg (hLpre n hn)] at g1 g2
        rcases hplace n hn y hy with h | h
        · rw [if_pos h] at g2
          have hyL : y.1 ∉ L := fun h' => hLpre _ h' h
          have h0 : x.count y.1 = 0 := List.count_eq_zero_of_not_mem fun h' => hyL (hx.sub _ h')
          rw [h0] at hk
          exact ⟨wait_sound hyp hyr hk g2, fun h' => absurd h' hyL⟩
        · rw [if_neg (hLpre _ h.1)] at g2
          by_cases hyx : y.1 ∈ x
          · have h1 : x.count y.1 = 1 := by
              have := List.nodup_iff_count.1 hx.nodup y.1
              have := List.count_pos_iff.2 hyx
              omega
            rw [h1] at hk
            have hd := div_pred_of_dvd hyp hP (hx.due _ hyx)
            exact ⟨wait_sound hyp hyr hk (by rw [← hd]; omega), fun _ => hyx⟩
          · rw [List.count_eq_zero_of_not_mem hyx] at hk
            have := wait_sound hyp hyr hk g2
            omega
      refine ⟨?_, ?_⟩
      · rcases slowest_attained rate (waits n) with h1 | ⟨y, hy, h1⟩
        · rw [hrate n hn', h1]; exact Nat.one_dvd _
        · exact (hdvd n hn').2 (key y hy (by rw [hrate n hn', h1])).1
      · rintro d ⟨hdL, k, hk, hkr⟩
        exact (key (d, k) hk hkr).2 hdL) (by
      -- complete
      intro n hn hD x hx hnx hdx
      have hn' := hLn n hn
      rw [hR n hn']
      refine decide_eq_true fun y hy => ?_
      dsimp only
      rw [hcount n hn x hnx]
      obtain ⟨g1, _⟩ := ht n hn' y hy
      simp only [if_neg (hLpre n hn)] at g1
      have hyp := hpos _ (hw n hn' y hy).1
      have hD' := (hdvd n hn').1 hD
      have hle : y.2 * rate y.1 ≤ rate n := by rw [hrate n hn']; exact le_slowest rate hy
      by_cases hyr : y.2 * rate y.1 = rate n
      · rcases hplace n hn y hy with h | h
        · rw [if_pos h] at g1
          have := wait_exact hyp hyr g1 hD'
          omega
        · rw [if_neg (hLpre _ h.1)] at g1
          have hyx := hdx y.1 ⟨h.1, y.2, hy, hyr⟩
          have h1 := List.count_pos_iff.2 hyx
          have hd := div_pred_of_dvd hyp hP (hx.due _ hyx)
          exact wait_exact hyp hyr (e := P) (by rw [← hd]; omega) hD'
      · have hlt : y.2 * rate y.1 < rate n := Nat.lt_of_le_of_ne hle hyr
        have hmono : (P - 1) / rate y.1 ≤ (since n p.inRun.flatten).count y.1 +
            rate n * ((P - 1) / rate n) / rate y.1 := by
          refine Nat.le_trans ?_ g1
          apply Nat.div_le_div_right
          split <;> omega
        have := wait_less hyp hlt hmono (by omega)
        omega) (by
      -- the nodes waited for
      rintro n hn hD d ⟨hdL, k, hk, hkr⟩
      refine ⟨hdL, Nat.dvd_trans ⟨k, by rw [← hkr, Nat.mul_comm]⟩ hD, ?_⟩
      rcases hplace n hn (d, k) hk with h | h
      · exact absurd h (hLpre d hdL)
      · exact h.2) hp
  obtain ⟨hc, hmem⟩ := hch
  refine ⟨hmem, fun n hn y hy => ?_⟩
  have hy' := (hw n hn y hy).1
  have hyp := hpos _ hy'
  obtain ⟨g1, g2⟩ := ht n hn y hy
  have hin : ∀ m, m ∈ (pre ++ [L]).flatten ↔ m ∈ pre.flatten ∨ m ∈ L := by
    intro m; simp
  generalize choice R L p = x at hc hmem
  have hcy : x.count y.1 = if y.1 ∈ L ∧ rate y.1 ∣ P then 1 else 0 := by
    split
    · rename_i h
      have := List.nodup_iff_count.1 hc.nodup y.1
      have := List.count_pos_iff.2 ((hmem y.1).2 h)
      omega
    · rename_i h
      exact List.count_eq_zero_of_not_mem fun h' => h ((hmem y.1).1 h')
  -- the quotient of the node waited for
  have hquo : (if y.1 ∈ (pre ++ [L]).flatten then P else P - 1) / rate y.1 =
      (if y.1 ∈ pre.flatten then P else P - 1) / rate y.1 + x.count y.1 := by
    rw [hcy]
    by_cases h : y.1 ∈ L
    · rw [if_pos ((hin _).2 (.inr h)), if_neg (hLpre _ h)]
      by_cases hd : rate y.1 ∣ P
      · rw [if_pos ⟨h, hd⟩, div_pred_of_dvd hyp hP hd]
      · rw [if_neg (fun h => hd h.2), div_pred_of_not_dvd hyp hd, Nat.add_zero]
    · rw [if_neg (c := y.1 ∈ L ∧ rate y.1 ∣ P) (fun h' => h h'.1), Nat.add_zero]
      have : (y.1 ∈ (pre ++ [L]).flatten) = (y.1 ∈ pre.flatten) := by
        rw [hin]; simp [h]
      simp only [this]
  dsimp only at g1 g2 ⊢
  rw [hquo]
  by_cases hnx : n ∈ x
  · -- the node executes
    have hnL := ((hmem n).1 hnx).1
    have hnD := ((hmem n).1 hnx).2
    have hPn : rate n * (P / rate n) = P := Nat.mul_div_cancel' hnD
    rw [if_pos ((hin n).2 (.inr hnL)), hPn]
    have hquo' : (if y.1 ∈ pre.flatten then P else P - 1) / rate y.1 + x.count y.1 = P / rate y.1 := by
      rw [← hquo, if_pos]
      rcases hplace n hnL y hy with h | h
      · exact (hin _).2 (.inl h)
      · exact (hin _).2 (.inr h.1)
    rw [hquo']
    refine ⟨by omega, fun hyr => ?_⟩
    have : y.1 ∉ since n (p.inRun.flatten ++ x) := by
      rw [since_append_mem _ _ hnx]
      rcases hplace n hnL y hy with h | h
      · intro h'
        have hx' : y.1 ∈ x := by
          have := since_suffix_part x [] hnx y.1 (by simpa using h')
          exact this
        exact hLpre _ (hc.sub _ hx') h
      · exact hc.before n hnx y.1 ⟨h.1, y.2, hy, hyr⟩
    rw [List.count_eq_zero_of_not_mem this]
    omega
  · rw [since_append_not_mem x _ hnx, List.count_append]
    have hqn' : (if n ∈ (pre ++ [L]).flatten then P else P - 1) / rate n =
        (if n ∈ pre.flatten then P else P - 1) / rate n := by
      by_cases h : n ∈ L
      · rw [if_pos ((hin _).2 (.inr h)), if_neg (hLpre _ h)]
        rw [div_pred_of_not_dvd (hpos n hn) fun hd => hnx ((hmem n).2 ⟨h, hd⟩)]
      · have : (n ∈ (pre ++ [L]).flatten) = (n ∈ pre.flatten) := by
          rw [hin]; simp [h]
        simp only [this]
    rw [hqn']
    refine ⟨by omega, fun hyr => ?_⟩
    have := g2 hyr
    omega

omit hqn hnd hR hrate in
theorem RateTally.congr {l : List α} {e e' : α → Nat} (h : RateTally nodes waits rate l e)
    (he : ∀ n ∈ nodes, e' n = e n) : RateTally nodes waits rate l e' := by
  intro n hn x hx
  rw [he n hn, he x.1 (hw n hn x hx).1]
  exact h n hn x hx

/-- The sets of pass `P` from one set on. -/
theorem passFrom_rated {P : Nat} (hP : 1 ≤ P) : ∀ (rest pre : List (List α)), q = pre ++ rest →
    ∀ p : Past α, p.next = [] → (∀ z, S { p with now := z } = false) →
      RateTally nodes waits rate p.inRun.flatten (fun n => if n ∈ pre.flatten then P else P - 1) →
      ∃ z, SameSets z ((rest.map fun l => l.filter fun n => decide (rate n ∣ P)).filter
          fun x => !x.isEmpty) ∧
        passFrom false R S rest p = { p with now := p.now ++ z } ∧
        RateTally nodes waits rate (p.inRun.flatten ++ z.flatten) fun _ => P
  | [], pre, hq, p, hp, hS, ht => by
    refine ⟨[], .nil, by simp [passFrom], ?_⟩
    simp only [List.flatten_nil, List.append_nil]
    refine RateTally.congr hw ht fun n hn => ?_
    rw [if_pos]
    have := (hqn n).2 hn
    rw [hq, List.append_nil] at this
    exact this
  | L :: rest, pre, hq, p, hp, hS, ht => by
    obtain ⟨h1, h2⟩ := set_rated hqn hnd hR hrate hw hq hP hp ht
    have hS0 : S p = false := hS p.now
    simp only [passFrom]
    rw [hS0, if_neg (by simp)]
    have hmem : SameMembers (choice R L p) (L.filter fun n => decide (rate n ∣ P)) := by
      intro n; rw [h1 n]; simp
    have hq' : q = (pre ++ [L]) ++ rest := by rw [hq]; simp
    by_cases hc : choice R L p = []
    · rw [if_pos ⟨hc, trivial⟩]
      have hf : L.filter (fun n => decide (rate n ∣ P)) = [] := by
        apply List.eq_nil_iff_forall_not_mem.2
        intro n hn
        have := (hmem n).2 hn
        rw [hc] at this; cases this
      rw [hc, List.append_nil] at h2
      obtain ⟨z, i1, i2, i3⟩ := passFrom_rated hP rest _ hq' p hp hS h2
      refine ⟨z, ?_, i2, i3⟩
      rw [List.map_cons, hf]
      exact i1
    · rw [if_neg (fun h => hc h.1)]
      have hf : L.filter (fun n => decide (rate n ∣ P)) ≠ [] := by
        obtain ⟨n, hn⟩ := List.exists_mem_of_ne_nil _ hc
        exact List.ne_nil_of_mem ((hmem n).1 hn)
      have hin : ({ p with now := p.now ++ [choice R L p] } : Past α).inRun.flatten =
          p.inRun.flatten ++ choice R L p := by rw [inRun_more]; simp
      obtain ⟨z, i1, i2, i3⟩ := passFrom_rated hP rest _ hq' { p with now := p.now ++ [choice R L p] } hp
        hS (by rw [hin]; exact h2)
      refine ⟨choice R L p :: z, ?_, by rw [i2]; simp, ?_⟩
      · rw [List.map_cons, List.filter_cons, if_pos (by simp [hf])]
        exact .cons hmem i1
      · rw [hin] at i3
        rw [List.flatten_cons, ← List.append_assoc]
        exact i3

/-- All passes, as long as the run is not to stop. -/
theorem reference_rated {runs : List (List (List (List α)))} {N : Nat}
    (hS : ∀ p : Past α, p.before.length < N → S p = false) : ∀ k, k ≤ N →
    ∃ B, reference false R S q k ⟨runs, [], [], []⟩ = ⟨runs, B, [], []⟩ ∧
      SamePasses B ((List.range k).map fun p => ratedPass rate q (p + 1)) ∧
      RateTally nodes waits rate B.flatten.flatten fun _ => k := by
  intro k
  induction k with
  | zero => exact fun _ => ⟨[], rfl, .nil, fun n hn x hx => by simp [since, afterLast]⟩
  | succ k ih =>
    intro hk
    obtain ⟨B, i1, i2, i3⟩ := ih (by omega)
    have hlen : B.length = k := by rw [All2.length i2]; simp
    rw [reference_succ, i1, hS _ (by simp only [hlen]; omega), if_neg (by simp)]
    obtain ⟨z, j1, j2, j3⟩ := passFrom_rated (S := S) hqn hnd hR hrate hw (P := k + 1) (by omega) q [] rfl
      ⟨runs, B, [], []⟩ rfl (fun z => hS _ (by simp only [hlen]; omega)) (by
        simpa [Past.inRun] using i3)
    rw [j2]
    refine ⟨B ++ [if z = [] then [[]] else z], by simp [closePass], ?_, ?_⟩
    · rw [List.range_succ, List.map_append]
      refine All2.snoc i2 ?_
      show SameSets _ (orEmpty _)
      unfold orEmpty
      generalize ((q.map fun l => l.filter fun n => decide (rate n ∣ k + 1)).filter
        fun x => !x.isEmpty) = y at j1
      cases j1 with
      | nil => exact .cons (fun _ => Iff.rfl) .nil
      | cons g1 g2 => rw [if_neg (by simp)]; exact .cons g1 g2
    · have e : (B ++ [if z = [] then [[]] else z]).flatten.flatten =
          (⟨runs, B, [], []⟩ : Past α).inRun.flatten ++ z.flatten := by
        simp only [List.flatten_append, Past.inRun, List.append_nil]
        by_cases hz : z = []
        · simp [hz]
        · simp [hz]
      rw [e]
      exact j3

end

/-! ## A run that stops, compared with one that does not -/

section
variable {R : α → Past α → Bool} {S : Past α → Bool}

/-- A pass that may be cut short, and the same pass to its end. -/
theorem passFrom_cut : ∀ (q : List (List α)) (p : Past α),
    ∃ z1 z2, passFrom false R S q p = { p with now := p.now ++ z1 } ∧
      passFrom false R (fun _ => false) q p = { p with now := p.now ++ z1 ++ z2 } ∧
      (z2 = [] ∨ S { p with now := p.now ++ z1 } = true) ∧ (S p = false → z1 = [] → z2 = [])
  | [], p => ⟨[], [], by simp [passFrom], by simp [passFrom], .inl rfl, fun _ _ => rfl⟩
  | L :: q, p => by
    by_cases hS : S p = true
    · have more : ∀ (q : List (List α)) (p : Past α),
          ∃ z, passFrom false R (fun _ => false) q p = { p with now := p.now ++ z } := by
        intro q
        induction q with
        | nil => intro p; exact ⟨[], by simp [passFrom]⟩
        | cons L q ih =>
          intro p
          simp only [passFrom, Bool.false_eq_true, if_false]
          split
          · exact ih p
          · obtain ⟨z, hz⟩ := ih { p with now := p.now ++ [choice R L p] }
            exact ⟨choice R L p :: z, by rw [hz]; simp⟩
      obtain ⟨z, hz⟩ := more (L :: q) p
      exact ⟨[], z, by simp [passFrom, hS], by rw [hz]; simp, .inr (by simpa using hS),
        fun h => by rw [hS] at h; cases h⟩
    · simp only [passFrom, if_neg hS, Bool.false_eq_true, if_false]
      split
      · exact passFrom_cut q p
      · obtain ⟨z1, z2, h1, h2, h3, h4⟩ := passFrom_cut q { p with now := p.now ++ [choice R L p] }
        refine ⟨choice R L p :: z1, z2, by rw [h1]; simp, by rw [h2]; simp, ?_, fun _ h => by cases h⟩
        simpa using h3

/-- A run that stops when every node has occurred yields an initial part of what it would
yield without stopping. -/
theorem reference_cut {q : List (List α)} {runs : List (List (List (List α)))} {nodes : List α}
    (hS : ∀ p : Past α, p.next = [] → (S p = true ↔ ∀ n ∈ nodes, n ∈ p.inRun.flatten)) : ∀ k,
    ∃ B C rest, reference false R S q k ⟨runs, [], [], []⟩ = ⟨runs, B, [], []⟩ ∧
      reference false R (fun _ => false) q k ⟨runs, [], [], []⟩ = ⟨runs, C, [], []⟩ ∧
      C.flatten = B.flatten ++ rest ∧ (S ⟨runs, B, [], []⟩ = false → C = B) := by
  intro k
  induction k with
  | zero => exact ⟨[], [], [], rfl, rfl, rfl, fun _ => rfl⟩
  | succ k ih =>
    obtain ⟨B, C, rest, h1, h2, h3, h4⟩ := ih
    rw [reference_succ, reference_succ, h1, h2]
    simp only [Bool.false_eq_true, if_false]
    by_cases hB : S ⟨runs, B, [], []⟩ = true
    · rw [if_pos hB]
      obtain ⟨z1, z2, _, g2, _, _⟩ := passFrom_cut (R := R) (S := S) q ⟨runs, C, [], []⟩
      rw [g2]
      simp only [closePass, List.nil_append, List.append_nil]
      generalize (if z1 ++ z2 = [] ∧ True then [[]] else z1 ++ z2) = y
      refine ⟨B, C ++ [y], rest ++ y, rfl, rfl, ?_, fun h => by rw [hB] at h; cases h⟩
      simp [h3]
    · rw [if_neg hB]
      have hB' : S ⟨runs, B, [], []⟩ = false := by simpa using hB
      obtain rfl := h4 hB'
      obtain ⟨z1, z2, g1, g2, g3, g4⟩ := passFrom_cut (R := R) (S := S) q ⟨runs, C, [], []⟩
      rw [g1, g2]
      simp only [closePass, List.nil_append] at g3 ⊢
      refine ⟨_, _, z2, rfl, rfl, ?_, ?_⟩
      · by_cases hz : z1 = []
        · have := g4 hB' hz
          subst hz; subst this; simp
        · simp [hz]
      · intro hn
        by_cases hz : z1 = []
        · have := g4 hB' hz
          subst hz; subst this; rfl
        · rcases g3 with g3 | g3
          · subst g3; simp
          · exfalso
            have e := (hS _ rfl).1 g3
            have : S ⟨runs, C ++ [if z1 = [] ∧ True then [[]] else z1], [], []⟩ = true := by
              refine (hS _ rfl).2 fun n hn => ?_
              have := e n hn
              simpa [Past.inRun, hz] using this
            simp only [hz, false_and, if_false] at this hn
            rw [this] at hn; cases hn

end

theorem untilAll_nil (l : List (List α)) : untilAll [] l = [] := by cases l <;> simp [untilAll]

theorem untilAll_append : ∀ {nodes : List α} {l m : List (List α)},
    (∀ n ∈ nodes, ∃ x ∈ l, n ∈ x) → untilAll nodes (l ++ m) = untilAll nodes l
  | nodes, [], m, h => by
    have : nodes = [] := by
      apply List.eq_nil_iff_forall_not_mem.2
      intro n hn; obtain ⟨x, hx, _⟩ := h n hn; cases hx
    subst this
    rw [untilAll_nil, untilAll_nil]
  | nodes, x :: l, m, h => by
    simp only [List.cons_append, untilAll]
    split
    · rfl
    · rw [untilAll_append]
      intro n hn
      obtain ⟨h1, h2⟩ := List.mem_filter.1 hn
      obtain ⟨y, hy, hny⟩ := h n h1
      rcases List.mem_cons.1 hy with rfl | hy
      · simp [hny] at h2
      · exact ⟨y, hy, hny⟩

theorem samePasses_flatten {A B : List (List (List α))} (h : SamePasses A B) :
    SameSets A.flatten B.flatten := by
  induction h with
  | nil => exact .nil
  | @cons x y xs ys h1 _ ih =>
    rw [List.flatten_cons, List.flatten_cons]
    have key : ∀ {x y : List (List α)}, SameSets x y → SameSets (x ++ xs.flatten) (y ++ ys.flatten) := by
      intro x y h
      induction h with
      | nil => exact ih
      | cons g1 _ g2 => exact .cons g1 g2
    exact key h1

end GS
