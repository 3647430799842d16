import Verif.Spec.Rates
import Verif.EveryN
import Verif.RunWhole
/-!
# Nodes that execute in every n-th pass: invariants
-/

set_option linter.unusedSectionVars false

namespace GS
open Spec Props
variable {α κ W : Type _} [DecidableEq α] [DecidableEq κ]
variable {E : Sys α κ W → Sys α κ W → Prop} {a : RunArgs α κ W} {s0 s1 s : Sys α κ W}
variable {abs : Bool} {h : History α κ W} {pc : PC α}

/-! ## Arithmetic -/

theorem slowest_pos (R : α → Nat) (l : List (α × Nat)) : 1 ≤ slowest R l := by
  induction l with
  | nil => exact Nat.le_refl _
  | cons p l ih => exact Nat.le_trans ih (Nat.le_max_right _ _)

theorem le_slowest (R : α → Nat) {l : List (α × Nat)} {p : α × Nat} (hp : p ∈ l) :
    p.2 * R p.1 ≤ slowest R l := by
  induction l with
  | nil => cases hp
  | cons q l ih =>
    rcases List.mem_cons.1 hp with rfl | hp
    · exact Nat.le_max_left _ _
    · exact Nat.le_trans (ih hp) (Nat.le_max_right _ _)

theorem slowest_attained (R : α → Nat) (l : List (α × Nat)) :
    slowest R l = 1 ∨ ∃ p ∈ l, slowest R l = p.2 * R p.1 := by
  induction l with
  | nil => exact .inl rfl
  | cons q l ih =>
    rcases Nat.le_total (q.2 * R q.1) (slowest R l) with hle | hle
    · have e : slowest R (q :: l) = slowest R l := Nat.max_eq_right hle
      rcases ih with ih | ⟨p, hp, ih⟩
      · exact .inl (e.trans ih)
      · exact .inr ⟨p, by simp [hp], e.trans ih⟩
    · exact .inr ⟨q, by simp, Nat.max_eq_left hle⟩

/-- The node's last execution was in pass `rb * ((p - 1) / rb)`: it now executes iff `rb`
divides `p`. -/
theorem rate_arith {R : α → Nat} {l : List (α × Nat)} {p rb : Nat} (hp : 1 ≤ p)
    (hR : ∀ x ∈ l, 1 ≤ R x.1) (hrb : rb = slowest R l) :
    (∀ x ∈ l, x.2 + (rb * ((p - 1) / rb)) / R x.1 ≤ p / R x.1) ↔ rb ∣ p := by
  have hpos : 1 ≤ rb := hrb ▸ slowest_pos R l
  have hdm := Nat.div_add_mod (p - 1) rb
  have hlt := Nat.mod_lt (p - 1) hpos
  generalize hq : (p - 1) / rb = q at hdm
  generalize hm : (p - 1) % rb = m at hdm hlt
  constructor
  · intro hall
    rcases slowest_attained R l with h1 | ⟨x, hx, h1⟩
    · rw [hrb, h1]; exact Nat.one_dvd _
    · have h2 := hall x hx
      have hRx := hR x hx
      have h3 : rb * q / R x.1 = x.2 * q := by
        rw [hrb, h1, Nat.mul_assoc, Nat.mul_comm (R x.1), ← Nat.mul_assoc]
        exact Nat.mul_div_cancel _ hRx
      rw [h3] at h2
      have h4 : (x.2 * (q + 1)) * R x.1 ≤ p := by
        have : x.2 * (q + 1) ≤ p / R x.1 := by rw [Nat.mul_add, Nat.mul_one]; omega
        exact (Nat.le_div_iff_mul_le hRx).1 this
      have h5 : (x.2 * (q + 1)) * R x.1 = rb * (q + 1) := by
        rw [hrb, h1, Nat.mul_right_comm]
      rw [h5] at h4
      have h6 : rb * (q + 1) = rb * q + rb := by rw [Nat.mul_add, Nat.mul_one]
      exact ⟨q + 1, by omega⟩
  · rintro ⟨t, ht⟩ x hx
    have hRx := hR x hx
    have htq : t = q + 1 := by
      have h6 : rb * (q + 1) = rb * q + rb := by rw [Nat.mul_add, Nat.mul_one]
      have h1 : rb * q < rb * t := by omega
      have h2 : rb * t ≤ rb * (q + 1) := by omega
      have h3 := Nat.lt_of_mul_lt_mul_left h1
      have h4 := Nat.le_of_mul_le_mul_left h2 hpos
      omega
    have h1 : x.2 * R x.1 ≤ rb := by rw [hrb]; exact le_slowest R hx
    rw [Nat.le_div_iff_mul_le hRx, Nat.add_mul, ht, htq, Nat.mul_add, Nat.mul_one]
    have := Nat.div_mul_le_self (rb * q) (R x.1)
    omega

theorem div_pred_of_not_dvd {p r : Nat} (hr : 1 ≤ r) (hn : ¬ r ∣ p) : (p - 1) / r = p / r := by
  have h1 := Nat.div_add_mod p r
  have h2 := Nat.mod_lt p hr
  have h3 : p % r ≠ 0 := fun h => hn (Nat.dvd_of_mod_eq_zero h)
  rw [Nat.div_eq_iff (by omega)]
  have h4 : r * (p / r) = (p / r) * r := Nat.mul_comm _ _
  constructor <;> omega

theorem div_pred_of_dvd {p r : Nat} (hr : 1 ≤ r) (hp : 1 ≤ p) (hd : r ∣ p) :
    (p - 1) / r + 1 = p / r := by
  obtain ⟨t, rfl⟩ := hd
  rw [Nat.mul_div_cancel_left _ hr]
  have ht : 1 ≤ t := by
    rcases Nat.eq_zero_or_pos t with rfl | h
    · simp at hp
    · exact h
  have h6 : r * t = r * (t - 1) + r := by
    conv => lhs; rw [show t = (t - 1) + 1 by omega, Nat.mul_add, Nat.mul_one]
  have : (r * t - 1) / r = t - 1 := by
    rw [Nat.div_eq_iff (by omega), Nat.mul_comm (t - 1)]
    constructor <;> omega
  omega

/-! ## Conditions -/

theorem Spec.WaitsFor.eval {v : View α κ W} {id : Option κ} {n : α} {u} {l : List (α × Nat)}
    {st0 st : Store α κ} {c : Cond α κ W} (hw : WaitsFor st0 n c l) (hst : st.owner = st0.owner)
    (hu : Dict.get? v.countsUseable id = some u) (hn : n ∈ v.nodes)
    (hl : ∀ p ∈ l, p.1 ∈ v.nodes) :
    GS.eval v id c st = (.ok (decide (∀ p ∈ l, p.2 ≤ u p.1 n)), st) := by
  induction hw with
  | always => simp [GS.eval, evalLeaf]
  | every o d k hk ho =>
    have hd := hl (d, k) (by simp)
    have hu' : v.useable id d (some n) = .ok (u d n) := by
      unfold View.useable
      rw [hu]; simp only [hd, hn, if_true]
    simp only [GS.eval, evalLeaf, hst, ho.2, hu']
    simp
  | allNil => simp [GS.eval, evalAll]
  | allCons o c cs l m hc hcs ih1 ih2 =>
    have e1 := ih1 fun p hp => hl p (List.mem_append_left _ hp)
    have e2 := ih2 fun p hp => hl p (List.mem_append_right _ hp)
    simp only [GS.eval] at e2 ⊢
    simp only [evalAll, e1]
    by_cases hh : ∀ p ∈ l, p.2 ≤ u p.1 n
    · rw [decide_eq_true hh]
      simp only [e2]
      congr 3
      apply propext
      constructor
      · intro h2 p hp
        rcases List.mem_append.1 hp with hp | hp
        · exact hh p hp
        · exact h2 p hp
      · intro h2 p hp; exact h2 p (List.mem_append_right _ hp)
    · rw [decide_eq_false hh]
      simp only
      congr 2
      symm
      simp only [decide_eq_false_iff_not]
      intro h2
      exact hh fun p hp => h2 p (List.mem_append_left _ hp)

theorem Spec.WaitsFor.pos {n : α} {l : List (α × Nat)} {st : Store α κ} {c : Cond α κ W}
    (hw : WaitsFor st n c l) : ∀ p ∈ l, 1 ≤ p.2 := by
  induction hw with
  | always => simp
  | every o d k hk => simp [hk]
  | allNil => simp
  | allCons o c cs l m hc hcs ih1 ih2 =>
    intro p hp
    rcases List.mem_append.1 hp with hp | hp
    · exact ih1 p hp
    · exact ih2 p hp

theorem Spec.WaitsFor.stateless {n : α} {l : List (α × Nat)} {st : Store α κ} {c : Cond α κ W}
    (hw : WaitsFor st n c l) : Stateless c := by
  induction hw with
  | always => trivial
  | every => trivial
  | allNil => trivial
  | allCons o c cs l m hc hcs ih1 ih2 =>
    simp only [Stateless, StatelessAll] at ih2 ⊢
    exact ⟨ih1, ih2⟩

theorem Spec.WaitsFor.owner {n : α} {l : List (α × Nat)} {st st' : Store α κ} {c : Cond α κ W}
    (hw : WaitsFor st n c l) (ho : ∀ o, o < st.fresh → st.owner o = some n → o < st'.fresh ∧ st'.owner o = some n) :
    WaitsFor st' n c l := by
  induction hw with
  | always => exact .always _
  | every o d k hk h => exact .every o d k hk (ho o h.1 h.2)
  | allNil => exact .allNil _
  | allCons o c cs l m hc hcs ih1 ih2 => exact .allCons o c cs l m ih1 ih2

theorem IsDefault.waitsFor {n : α} {deps : List α} {st : Store α κ} {c : Cond α κ W}
    (hd : IsDefault st n deps c) : WaitsFor st n c (deps.map fun d => (d, 1)) := by
  obtain ⟨o, rfl, h2, h3, h4⟩ := hd.ex
  match deps, h2, h3, h4 with
  | [], _, _, _ => exact .always _
  | [d], h2, h3, _ => exact .every o d 1 (Nat.le_refl _) ⟨by omega, h3 d rfl⟩
  | d :: d' :: ds, h2, _, h4 =>
    have e : (Sys.defaultCond o (d :: d' :: ds) : Cond α κ W) =
        .all o (defaultLeaves (o + 1) (d :: d' :: ds)) := by
      simp only [Sys.defaultCond]; rw [defaultLeaves_eq, Nat.add_zero]
    rw [e]
    have key : ∀ (l : List α) (k : OId), (∀ x, k ≤ x → x < k + l.length → x < st.fresh ∧ st.owner x = some n) →
        WaitsFor st n (.all o (defaultLeaves k l) : Cond α κ W) (l.map fun d => (d, 1)) := by
      intro l
      induction l with
      | nil => intro k _; exact .allNil o
      | cons y l ih =>
        intro k hk
        refine .allCons o _ _ [(y, 1)] _ (.every k y 1 (Nat.le_refl _) ?_) (ih _ ?_)
        · exact hk k (Nat.le_refl _) (by simp)
        · intro x h1 h2; exact hk x (by omega) (by simp; omega)
    exact key _ _ fun x h5 h6 => ⟨by omega, h4 (by simp) x h5 h6⟩

/-! ## Runs -/

/-- The calls a node waits for, in a run. -/
theorem Spec.NodeWaitsFor.started (hs1 : s0.start a = (s1, .ok abs)) {n : α} {l : List (α × Nat)}
    (hn : n ∈ s0.nodes) (hw : NodeWaitsFor s0 n l) :
    ∃ c, Dict.get? s1.conds n = some c ∧ WaitsFor s1.store n c l := by
  obtain ⟨x1, x2, x3, _⟩ := (Sys.start_ok hs1).conds_spec
  rcases hw with ⟨c, h1, h2⟩ | ⟨h1, deps, h2, rfl⟩
  · exact ⟨c, x2 n c h1, h2.owner fun o h3 h4 => ⟨Nat.lt_of_lt_of_le h3 x1.fresh,
      (x1.owner o h3).trans h4⟩⟩
  · obtain ⟨deps', c, e1, e2, e3⟩ := x3 n hn h1
    rw [h2] at e1; injection e1 with e1; subst e1
    exact ⟨c, e2, e3.waitsFor⟩

theorem inPass_pos (hi : InPass h) : 1 ≤ passes h := by
  obtain ⟨e, he, hp⟩ := hi
  exact List.countP_pos_iff.2 ⟨e, he, by simp [isPassStart, hp]⟩

/-- A node at position `i` was dealt with in the current pass, by program counter. -/
def Dealt (h : History α κ W) (n : α) (i : Nat) : PC α → Prop
  | .inner k _ => i < k
  | .choosing c => i < c.idx ∨ (i = c.idx ∧ n ∈ c.exec)
  | .yielded k _ => i ≤ k
  | _ => InPass h → i ∈ setsConsidered (currentPass h)

/-- The number of executions of a node of rate `r`. -/
def CountAt (h : History α κ W) (r : Nat) (n : α) (i : Nat) (pc : PC α) : Prop :=
  (Dealt h n i pc → (selections h).count n = passes h / r) ∧
  (¬ Dealt h n i pc → (selections h).count n = (passes h - 1) / r)

/-- The run is not raised. -/
def Alive : PC α → Prop
  | .raised _ => False
  | _ => True

/-- Counts of the nodes in `G`. -/
structure RateInv (q : List (List α)) (G : α → Prop) (R : α → Nat) (h : History α κ W)
    (pc : PC α) : Prop where
  since : ∀ b i d j, G b → G d → At q i b → At q j d → j < i →
    (since b (selections h)).count d + (R b * (selections h).count b) / R d = (selections h).count d
  exec : ∀ c, pc = .choosing c → ∀ n ∈ c.exec, G n → R n ∣ passes h
  count : Alive pc → ∀ n i, G n → At q i n → CountAt h (R n) n i pc


theorem CountAt.same {h h' : History α κ W} {r i : Nat} {n : α} {pc pc' : PC α}
    (hc : CountAt h r n i pc) (hs : selections h' = selections h) (hp : passes h' = passes h)
    (hd : Dealt h' n i pc' ↔ Dealt h n i pc) : CountAt h' r n i pc' := by
  unfold CountAt
  rw [hs, hp, hd]
  exact hc

theorem Reach.rates (hr : Reach E a s0 abs h s pc) (hE : Leaves' E a)
    (hq : s0.queue.flatten.Nodup) (hqn : ∀ n ∈ s0.queue.flatten, n ∈ s0.nodes)
    {G : α → Prop} {R : α → Nat} {j : Nat} (hG : Rated s0 G R j) (hp : PassesReach j h) :
    RateInv s0.queue G R h pc := by
  obtain ⟨s1, hs1⟩ := hr.started
  have hRpos : ∀ n, G n → 1 ≤ R n := by
    intro n hn
    obtain ⟨i, l, _, _, _, h4, _⟩ := hG n hn
    rw [h4]; exact slowest_pos R l
  -- what a condition is found to be
  have cond : ∀ {h : History α κ W} {s : Sys α κ W} {c}, Reach E a s0 abs h s (.choosing c) →
      RateInv s0.queue G R h (.choosing c) → ∀ n, G n → At s0.queue c.idx n → n ∉ c.exec →
      ∃ cd, Dict.get? s.conds n = some cd ∧ Stateless cd ∧ ∀ st : Store α κ,
        st.owner = s.store.owner → (eval s.toView a.id cd st).1 = .ok (decide (R n ∣ passes h)) := by
    intro h s c hr inv n hn hat hex
    obtain ⟨i, l, _, h2, h3, h4, h5⟩ := hG n hn
    have hi : i = c.idx := at_unique hq h2 hat
    subst hi
    obtain ⟨cd, c1, c2⟩ := h3.started hs1 (hqn n (At.mem hat))
    have hns := hr.keepNodes hE.nodes
    obtain ⟨u, hu, ui⟩ := hr.useable hE.useable
    refine ⟨cd, by rw [hr.keepConds hE.conds hs1]; exact c1, c2.stateless, fun st hst => ?_⟩
    rw [c2.eval (hst.trans (hr.keepOwner hE.owner hs1)) hu
      (by rw [hns]; exact hqn n (At.mem hat)) (fun p hp => by
        obtain ⟨_, i', _, hi'⟩ := h5 p hp
        rw [hns]; exact hqn _ (At.mem hi'))]
    simp only
    congr 2
    apply propext
    have hP : 1 ≤ passes h := inPass_pos hr.inPass
    rw [← rate_arith hP (fun x hx => hRpos _ (h5 x hx).1) h4]
    have hcn : (selections h).count n = (passes h - 1) / R n :=
      (inv.count trivial n c.idx hn hat).2 (by
        rintro (h | ⟨_, h⟩)
        · omega
        · exact hex h)
    have each : ∀ p ∈ l, u p.1 n + (R n * ((passes h - 1) / R n)) / R p.1 = passes h / R p.1 := by
      intro p hp
      obtain ⟨g1, i', g2, g3⟩ := h5 p hp
      have hne : p.1 ≠ n := by
        intro e
        rw [e] at g3
        have := at_unique hq g3 hat
        omega
      have e1 := inv.since n c.idx p.1 i' hn g1 hat g3 g2
      rw [(inv.count trivial p.1 i' g1 g3).1 (.inl g2), hcn] at e1
      rw [ui.diff _ _ hne]
      exact e1
    constructor
    · intro hh p hp
      have := each p hp
      have := hh p hp
      omega
    · intro hh p hp
      have := each p hp
      have := hh p hp
      omega
  have lastOf : ∀ {h : History α κ W} {s : Sys α κ W} {c}, Reach E a s0 abs h s (.choosing c) →
      RateInv s0.queue G R h (.choosing c) → c.todo = [] → c.again = false →
      ∀ n, G n → At s0.queue c.idx n → n ∉ c.exec → ¬ R n ∣ passes h := by
    intro h s c hr inv ht hag n hn hat hex
    obtain ⟨cd, c1, c2, c3⟩ := cond hr inv n hn hat hex
    have ci := hr.choice c rfl
    have hbl : n ∈ c.layer := by
      obtain ⟨l, hl, hbl⟩ := hat
      have := ci.queue
      rw [hr.keepQueue hE.queue, hl] at this
      injection this with this
      rw [← this]; exact hbl
    rcases hr.fix c rfl hag c.layer (by rw [ht]; simp) n hbl with h2 | h2
    · exact absurd h2 hex
    · obtain ⟨cd', e1, e2⟩ := h2.stateless c1 c2
      rw [c1] at e1; injection e1 with e1; subst e1
      unfold Evaluates at e2
      rw [c3 _ rfl] at e2
      simpa using e2
  have endOf : ∀ {h h' : History α κ W} {s : Sys α κ W} {c pc'},
      Reach E a s0 abs h s (.choosing c) → RateInv s0.queue G R h (.choosing c) → c.todo = [] →
      c.again = false → selections h' = selections h → passes h' = passes h →
      (∀ n i, Dealt h' n i pc' ↔ i ≤ c.idx) → (∀ c', pc' ≠ .choosing c') → RateInv s0.queue G R h' pc' := by
    intro h h' s c pc' hr inv ht hag hs hpp hd hnc
    refine ⟨by rw [hs]; exact inv.since, fun c' hc' => absurd hc' (hnc c'), fun _ n i hn hat => ?_⟩
    have hc := inv.count trivial n i hn hat
    unfold CountAt
    rw [hs, hpp, hd]
    refine ⟨fun hle => ?_, fun hnle => hc.2 ?_⟩
    · by_cases hlt : i < c.idx ∨ (i = c.idx ∧ n ∈ c.exec)
      · exact hc.1 hlt
      · have hi : i = c.idx := by
          rcases Nat.lt_or_ge i c.idx with h1 | h1
          · exact absurd (.inl h1) hlt
          · omega
        have hex : n ∉ c.exec := fun h => hlt (.inr ⟨hi, h⟩)
        rw [hc.2 hlt]
        exact div_pred_of_not_dvd (hRpos n hn) (lastOf hr inv ht hag n hn (hi ▸ hat) hex)
    · rintro (h1 | ⟨h1, _⟩) <;> omega
  have := hr.ind (P := fun h _ pc => PassesReach j h → RateInv s0.queue G R h pc) ?_ ?_ ?_
  · exact this hp
  · intro s _ _
    refine ⟨fun b i d j _ _ _ _ _ => by simp [selections, Spec.since, afterLast], by rintro _ ⟨⟩, fun _ n i _ _ => ?_⟩
    refine ⟨fun _ => by simp [selections, passes], fun hn => absurd ?_ hn⟩
    rintro ⟨e, he, _⟩; cases he
  · intro h s s' pc pc' ev hr ih hst hp'
    have ih := ih hp'.ext
    have hqs := hr.keepQueue hE.queue
    have nochange : ∀ x : Event α, x.add? = none →
        selections (ext h s (some x) s') = selections h := fun x hx => selections_ext_none h s s' x hx
    have same : ∀ x : Event α, x ≠ .passStart → passes (ext h s (some x) s') = passes h := by
      intro x hx; rw [passes_ext, if_neg hx]; rfl
    cases hst with
    | pass hg hf =>
      refine ⟨by rw [nochange _ rfl]; exact ih.since, by rintro _ ⟨⟩, fun _ n i hn hat => ?_⟩
      unfold CountAt
      rw [nochange _ rfl, passes_ext, if_pos rfl]
      refine ⟨fun hh => absurd hh (Nat.not_lt_zero _), fun _ => ?_⟩
      rw [Nat.add_sub_cancel]
      refine (ih.count trivial n i hn hat).1 fun hin => ?_
      rw [ext_some] at hp'
      have hj := hp' h _ [] rfl rfl hin
      obtain ⟨k, _, e1, _⟩ := hr.considered_range hE.queue
      rw [e1, List.mem_range] at hj ⊢
      obtain ⟨i', l, h1, h2, _⟩ := hG n hn
      have := at_unique hq h2 hat
      omega
    | stopSkip =>
      refine ⟨by rw [nochange _ rfl]; exact ih.since, by rintro _ ⟨⟩, fun _ n i hn hat =>
        (ih.count trivial n i hn hat).same (nochange _ rfl) (same _ (by simp)) ?_⟩
      unfold Dealt
      rw [inPass_ext _ _ _ _ (by simp), setsConsidered_cur_ext _ _ _ _ (by simp) (by simp)]
    | stopIncr =>
      refine ⟨by rw [nochange _ rfl]; exact ih.since, by rintro _ ⟨⟩, fun _ n i hn hat =>
        (ih.count trivial n i hn hat).same (nochange _ rfl) (same _ (by simp)) ?_⟩
      unfold Dealt
      rw [inPass_ext _ _ _ _ (by simp), setsConsidered_cur_ext _ _ _ _ (by simp) (by simp)]
    | @passEnd idx =>
      rw [ext_none]
      refine ⟨ih.since, by rintro _ ⟨⟩, fun _ n i hn hat =>
        (ih.count trivial n i hn hat).same rfl rfl ?_⟩
      obtain ⟨k, hk, e1, _⟩ := hr.considered_range hE.queue
      cases hk
      unfold Dealt
      rw [e1, List.mem_range]
      exact ⟨fun hh => hh hr.inPass, fun hh _ => hh⟩
    | @emptyYield idx =>
      refine ⟨by rw [nochange _ rfl]; exact ih.since, by rintro _ ⟨⟩, fun _ n i hn hat =>
        (ih.count trivial n i hn hat).same (nochange _ rfl) (same _ (by simp)) ?_⟩
      obtain ⟨k, hk, e1, _⟩ := hr.considered_range hE.queue
      cases hk
      unfold Dealt
      rw [inPass_ext _ _ _ _ (by simp), setsConsidered_cur_ext _ _ _ _ (by simp) (by simp), e1,
        List.mem_range]
      exact ⟨fun hh => hh hr.inPass, fun hh _ => hh⟩
    | consider =>
      refine ⟨by rw [nochange _ rfl]; exact ih.since, by rintro _ ⟨⟩; simp, fun _ n i hn hat =>
        (ih.count trivial n i hn hat).same (nochange _ rfl) (same _ (by simp)) ?_⟩
      unfold Dealt
      simp
    | @again c => rw [ext_none]; exact ⟨ih.since, by rintro _ ⟨⟩; exact ih.exec c rfl, ih.count⟩
    | @skip c => rw [ext_none]; exact ⟨ih.since, by rintro _ ⟨⟩; exact ih.exec c rfl, ih.count⟩
    | @reject c => rw [ext_none]; exact ⟨ih.since, by rintro _ ⟨⟩; exact ih.exec c rfl, ih.count⟩
    | @add c m ns cd st f u ht hm hc he =>
      have ci := hr.choice c rfl
      obtain ⟨dd, hdd⟩ := ci.todo
      have hat : At s0.queue c.idx m :=
        ⟨c.layer, by rw [← hqs]; exact ci.queue, by rw [hdd, ht]; simp⟩
      have hP : 1 ≤ passes h := inPass_pos hr.inPass
      have hsel : selections (ext h s (some (.add m)) (((s.putStore st).putTotal a.id (bumpF m f)).putUseable
          a.id (bumpU m u))) = selections h ++ [m] := by rw [ext_some, selections_snoc]; rfl
      have hpas := same (.add m) (by simp)
      have cntm : G m → R m ∣ passes h ∧ (selections h).count m = (passes h - 1) / R m := by
        intro hgm
        obtain ⟨cd', c1, c2, c3⟩ := cond hr ih m hgm hat hm
        rw [hc] at c1; injection c1 with c1; subst c1
        have := c3 s.store rfl
        rw [he] at this
        refine ⟨by simpa using this.symm, (ih.count trivial m c.idx hgm hat).2 ?_⟩
        rintro (h | ⟨_, h⟩)
        · omega
        · exact hm h
      refine ⟨?_, ?_, fun _ n i hn hatn => ?_⟩
      rotate_left
      · rintro _ ⟨⟩ n hn hgn
        rw [hpas]
        rcases List.mem_append.1 hn with hn | hn
        · exact ih.exec c rfl n hn hgn
        · rw [List.mem_singleton.1 hn] at hgn ⊢
          exact (cntm hgn).1
      rotate_left
      · rw [hsel]
        intro b i d i' hb hd hib hid hlt
        have hbd : d ≠ b := by
          rintro rfl
          have := at_unique hq hib hid; omega
        have ihs := ih.since b i d i' hb hd hib hid hlt
        rw [count_since_snoc b d m _ hbd, List.count_append, List.count_append]
        by_cases hmb : m = b
        · subst hmb
          obtain ⟨g1, g2⟩ := cntm hb
          have hidx := at_unique hq hat hib
          have e1 : List.count d [m] = 0 := by rw [List.count_singleton]; simp [Ne.symm hbd]
          have e2 : List.count m [m] = 1 := by simp
          rw [if_pos rfl, e1, e2, g2, div_pred_of_dvd (hRpos m hb) hP g1, Nat.mul_div_cancel' g1,
            (ih.count trivial d i' hd hid).1 (.inl (by omega))]
          omega
        · rw [if_neg hmb]
          have e2 : List.count b [m] = 0 := by rw [List.count_singleton]; simp [hmb]
          rw [e2, Nat.add_zero]
          by_cases hmd : m = d
          · have e1 : List.count d [m] = 1 := by rw [hmd]; simp
            rw [e1, if_pos hmd]; omega
          · have e1 : List.count d [m] = 0 := by rw [List.count_singleton]; simp [hmd]
            rw [e1, if_neg hmd]; omega
      · unfold CountAt
        rw [hsel, hpas, List.count_append]
        have ihc := ih.count trivial n i hn hatn
        by_cases hmn : m = n
        · subst hmn
          obtain ⟨g1, g2⟩ := cntm hn
          have hidx := at_unique hq hat hatn
          have e2 : List.count m [m] = 1 := by simp
          rw [e2, g2, div_pred_of_dvd (hRpos m hn) hP g1]
          refine ⟨fun _ => rfl, fun hh => absurd ?_ hh⟩
          exact .inr ⟨hidx.symm, by simp⟩
        · have e2 : List.count n [m] = 0 := by rw [List.count_singleton]; simp [hmn]
          rw [e2, Nat.add_zero]
          have : Dealt h n i (.choosing { c with todo := ns, exec := c.exec ++ [m], again := true }) ↔
              Dealt h n i (.choosing c) := by
            unfold Dealt
            simp [Ne.symm hmn]
          have hd2 : ∀ h' : History α κ W, Dealt h' n i (.choosing { c with todo := ns, exec := c.exec ++ [m], again := true }) ↔
              Dealt h n i (.choosing c) := fun h' => this
          rw [hd2]
          exact ihc
    | @yield c l ht hag =>
      exact endOf hr ih ht hag (nochange _ rfl) (same _ (by simp)) (fun n i => Iff.rfl) (by rintro _ ⟨⟩)
    | @yieldAbs c l ts ht hag =>
      exact endOf hr ih ht hag (nochange _ rfl) (same _ (by simp)) (fun n i => Iff.rfl) (by rintro _ ⟨⟩)
    | @silent c ht hag ha hne =>
      exact endOf hr ih ht hag (nochange _ rfl) (same _ (by simp)) (fun n i => Nat.lt_succ_iff) (by rintro _ ⟨⟩)
    | resume =>
      rw [ext_none]
      refine ⟨ih.since, by rintro _ ⟨⟩, fun _ n i hn hat => (ih.count trivial n i hn hat).same rfl rfl ?_⟩
      exact Nat.lt_succ_iff
    | resumeEmpty => rw [ext_none]; exact ⟨ih.since, by rintro _ ⟨⟩, ih.count⟩
    | returned => rw [ext_none]; exact ⟨ih.since, by rintro _ ⟨⟩, ih.count⟩
    | raised => rw [ext_none]; exact ih
    | fails hf hfr hev =>
      refine ⟨?_, by rintro _ ⟨⟩, fun hx => hx.elim⟩
      rcases hev with rfl | ⟨rfl, rfl, _⟩
      · rw [ext_none]; exact ih.since
      · rw [nochange _ rfl]; exact ih.since
  · intro h s s' pc _ ih _ _; exact ih


/-! ## The default termination conditions -/

section
variable (ha : DefaultTermination a) (hT : Keeps E fun s => Dict.get? s.countsTotal a.id)
  (hN : Keeps E fun s => s.nodes)
include ha hT hN

theorem Reach.defaultEsu (hr : Reach E a s0 abs h s pc) (st : Store α κ) :
    eval s.toView a.id a.esu st = (.ok (decide (∀ n ∈ s0.nodes, n ∈ selections h)), st) := by
  obtain ⟨o, o', e1, _⟩ := ha
  obtain ⟨f, _, h1, _, _, _, h2⟩ := C11_run_count hr hT
  rw [e1, allHaveRun_eval o st h1]
  congr 3
  rw [hr.keepNodes hN]
  apply propext
  constructor
  · intro hx n hn
    have := hx n hn
    rw [h2] at this
    exact List.count_pos_iff.1 this
  · intro hx n hn
    rw [h2]
    exact List.count_pos_iff.2 (hx n hn)

theorem Reach.defaultGoing (hr : Reach E a s0 abs h s pc) {st} (hg : Going s a st) :
    ∃ n ∈ s0.nodes, n ∉ selections h := by
  obtain ⟨st1, h1, _⟩ := hg
  rw [hr.defaultEsu ha hT hN] at h1
  simp only [Prod.mk.injEq, Except.ok.injEq, decide_eq_false_iff_not] at h1
  exact Classical.not_forall.1 h1.1 |>.imp fun n hn => Classical.not_imp.1 hn

theorem Reach.defaultDone (hr : Reach E a s0 abs h s pc) {st} (hd : Done s a st) :
    ∀ n ∈ s0.nodes, n ∈ selections h := by
  rcases hd with hd | ⟨st1, h1, h2⟩
  · rw [hr.defaultEsu ha hT hN] at hd
    simp only [Prod.mk.injEq, Except.ok.injEq, decide_eq_true_eq] at hd
    exact hd.1
  · rw [seq_never ha] at h2; simp at h2

/-- A pass that ended considered all sets, or all nodes had run. -/
def PassEnded (s0 : Sys α κ W) (h : History α κ W) : PC α → Prop
  | .outer | .yieldedEmpty | .returned => InPass h →
      (∀ j, j < s0.queue.length → j ∈ setsConsidered (currentPass h)) ∨
      ∀ n ∈ s0.nodes, n ∈ selections h
  | _ => True

theorem Reach.passEnded (hr : Reach E a s0 abs h s pc) (hQ : Keeps E fun s => s.queue) :
    PassEnded s0 h pc := by
  refine hr.ind (P := fun h _ pc => PassEnded s0 h pc) ?_ ?_ ?_
  · rintro s _ ⟨e, he, _⟩; cases he
  · intro h s s' pc pc' ev hr ih hst
    have nochange : ∀ x : Event α, x.add? = none →
        selections (ext h s (some x) s') = selections h := fun x hx => selections_ext_none h s s' x hx
    have leave : ∀ idx ch st, pc = .inner idx ch → GS.Leaves s a idx st →
        (∀ j, j < s0.queue.length → j ∈ setsConsidered (currentPass h)) ∨
        ∀ n ∈ s0.nodes, n ∈ selections h := by
      rintro idx ch st rfl (⟨hl, _⟩ | ⟨_, hd⟩)
      · left
        intro j hj
        obtain ⟨k, hk, e1, _⟩ := hr.considered_range hQ
        cases hk
        rw [e1, List.mem_range]
        rw [hr.keepQueue hQ] at hl
        have := List.getElem?_eq_none_iff.1 hl
        omega
      · exact .inr (hr.defaultDone ha hT hN hd)
    cases hst with
    | stopSkip =>
      intro hin
      rw [nochange _ rfl, setsConsidered_cur_ext _ _ _ _ (by simp) (by simp)]
      exact ih ((inPass_ext _ _ _ _ (by simp)).1 hin)
    | stopIncr =>
      intro hin
      rw [nochange _ rfl, setsConsidered_cur_ext _ _ _ _ (by simp) (by simp)]
      exact ih ((inPass_ext _ _ _ _ (by simp)).1 hin)
    | passEnd hl => rw [ext_none]; exact fun _ => leave _ _ _ rfl hl
    | emptyYield hl =>
      intro _
      rw [nochange _ rfl, setsConsidered_cur_ext _ _ _ _ (by simp) (by simp)]
      exact leave _ _ _ rfl hl
    | resumeEmpty => rw [ext_none]; exact ih
    | returned => rw [ext_none]; exact ih
    | _ => trivial
  · intro h s s' pc _ ih _ _; exact ih

/-- With the default termination conditions only the last pass can be cut short. -/
theorem Reach.defaultPasses (hr : Reach E a s0 abs h s pc) (hQ : Keeps E fun s => s.queue) {j : Nat}
    (hj : j < s0.queue.length) : PassesReach j h := by
  intro h1 e h2 hh he hin
  obtain ⟨p, p', hr1, hs, _⟩ := hr.entry h1 e h2 hh
  have hst := Sys.step_stepR hs
  have key : p = .outer ∧ ∃ st, Going e.before a st := by
    generalize hx : some e.ev = ev at hst
    generalize e.after = sa at hst
    rw [he] at hx
    cases hst with
    | pass hg => exact ⟨rfl, _, hg⟩
    | fails _ _ hx' =>
      rcases hx' with rfl | ⟨_, rfl, _⟩ <;> cases hx
    | _ => cases hx
  obtain ⟨rfl, st, hg⟩ := key
  rcases hr1.passEnded ha hT hN hQ hin with h3 | h3
  · exact h3 j hj
  · obtain ⟨n, h4, h5⟩ := hr1.defaultGoing ha hT hN hg
    exact absurd (h3 n h4) h5

end

/-! ## Runs with boundedly many sets end -/

/-- A bound for the number of sets yielded. -/
def YieldsAt (q : List (List α)) (h : History α κ W) : PC α → Prop
  | .inner k _ => (yields h).length + (q.length + 1) ≤ passes h * (q.length + 1) + k
  | .choosing c => (yields h).length + (q.length + 1) ≤ passes h * (q.length + 1) + c.idx
  | .yielded k _ => (yields h).length + (q.length + 1) ≤ passes h * (q.length + 1) + (k + 1)
  | _ => (yields h).length ≤ passes h * (q.length + 1)

theorem Reach.yieldsAt (hr : Reach E a s0 abs h s pc) (hQ : Keeps E fun s => s.queue) :
    YieldsAt s0.queue h pc := by
  have yl : ∀ (h : History α κ W) (s s' : Sys α κ W) (x : Event α),
      (yields (ext h s (some x) s')).length = (yields h).length + x.yield?.toList.length := by
    intro h s s' x; rw [ext_some, yields_snoc, List.length_append]
  refine hr.ind (P := fun h _ pc => YieldsAt s0.queue h pc) ?_ ?_ ?_
  · intro s _; exact Nat.zero_le _
  · intro h s s' pc pc' ev hr ih hst
    have hpcs : ∀ c, pc = .choosing c → c.idx < s0.queue.length := by
      intro c hc
      have := (hr.choice c hc).queue
      rw [hr.keepQueue hQ] at this
      exact (List.getElem?_eq_some_iff.1 this).1
    have hinn : ∀ k ch, pc = .inner k ch → k ≤ s0.queue.length := by
      rintro k ch rfl
      obtain ⟨k', hk, _, e2⟩ := hr.considered_range hQ
      cases hk; exact e2
    have hyld : ∀ k ch, pc = .yielded k ch → k + 1 ≤ s0.queue.length := by
      rintro k ch rfl
      obtain ⟨k', hk, _, e2⟩ := hr.considered_range hQ
      cases hk; exact e2
    unfold YieldsAt at ih
    cases hst with
    | pass =>
      unfold YieldsAt
      rw [yl, passes_ext, if_pos rfl, Nat.add_mul, Nat.one_mul]
      simp [Event.yield?] at ih ⊢; omega
    | stopSkip => unfold YieldsAt; rw [yl, passes_ext]; simpa [Event.yield?] using ih
    | stopIncr => unfold YieldsAt; rw [yl, passes_ext]; simpa [Event.yield?] using ih
    | @passEnd idx ch =>
      have := hinn idx ch rfl
      unfold YieldsAt; rw [ext_none]; simp at ih ⊢; omega
    | @emptyYield idx =>
      have := hinn idx _ rfl
      unfold YieldsAt; rw [yl, passes_ext]; simp [Event.yield?] at ih ⊢; omega
    | consider => unfold YieldsAt; rw [yl, passes_ext]; simpa [Event.yield?] using ih
    | again => rw [ext_none]; exact ih
    | skip => rw [ext_none]; exact ih
    | reject => rw [ext_none]; exact ih
    | add => unfold YieldsAt; rw [yl, passes_ext]; simpa [Event.yield?] using ih
    | @yield c => unfold YieldsAt; rw [yl, passes_ext]; simp [Event.yield?] at ih ⊢; omega
    | @yieldAbs c => unfold YieldsAt; rw [yl, passes_ext]; simp [Event.yield?] at ih ⊢; omega
    | @silent c => unfold YieldsAt; rw [yl, passes_ext]; simp [Event.yield?] at ih ⊢; omega
    | @resume k ch => unfold YieldsAt; rw [ext_none]; exact ih
    | resumeEmpty => rw [ext_none]; exact ih
    | returned => rw [ext_none]; exact ih
    | raised => rw [ext_none]; exact ih
    | fails hp hfr hev =>
      rcases hev with rfl | ⟨rfl, rfl, _⟩
      · rw [ext_none]
        unfold YieldsAt
        cases pc with
        | outer => exact ih
        | yieldedEmpty => exact ih
        | returned => exact ih
        | raised => exact ih
        | inner k ch => have := hinn k ch rfl; simp at ih ⊢; omega
        | choosing c => have := hpcs c rfl; simp at ih ⊢; omega
        | yielded k ch => have := hyld k ch rfl; simp at ih ⊢; omega
      · unfold YieldsAt; rw [yl, passes_ext]; simpa [Event.yield?] using ih
  · intro h s s' pc _ ih _ _; exact ih

/-- A run outside absolute-time mode that yields boundedly many sets comes to an end. -/
theorem bounded_ends {s1} (hs : s0.start a = (s1, .ok false)) (B : Nat)
    (hB : ∀ j h s pc, steps a false j [] s1 .outer = (h, s, pc) → (yields h).length ≤ B) :
    ∃ k h s pc, steps a false k [] s1 .outer = (h, s, pc) ∧ pc.final = true := by
  have key : ∀ m b h s pc j, B - (yields h).length ≤ m → stepBound s.queue pc ≤ b →
      pc.suspended = false → steps a false j [] s1 .outer = (h, s, pc) →
      ∃ k h s pc, steps a false k [] s1 .outer = (h, s, pc) ∧ pc.final = true := by
    intro m
    induction m using Nat.strongRecOn with
    | _ m ihm =>
    intro b
    induction b using Nat.strongRecOn with
    | _ b ihb =>
    intro h s pc j hm hb hp hj
    have next : ∀ {j h s pc s' pc' ev}, steps a false j [] s1 .outer = (h, s, pc) →
        s.step a false pc = (s', pc', ev) →
        steps a false (j + 1) [] s1 .outer = (ext h s ev s', s', pc') := by
      intro j h s pc s' pc' ev h1 h2
      rw [steps_add, h1]; simp only [steps, h2]
    cases hf : pc.final with
    | true => exact ⟨j, h, s, pc, hj, hf⟩
    | false =>
    have hr : Reach (fun _ _ => False) a s0 false h s pc := steps_reach (.start hs) hj
    rcases hst : s.step a false pc with ⟨s2, pc2, ev⟩
    have hj2 := next hj hst
    have hsr := Sys.step_stepR hst
    by_cases hx : pc2.suspended = true
    · have hev : ev.bind Event.yield? ≠ none := by
        cases hsr <;> simp_all [PC.suspended, Event.yield?]
      have hlen : (yields (ext h s ev s2)).length = (yields h).length + 1 := by
        cases ev with
        | none => simp at hev
        | some x =>
          rw [ext_some, yields_snoc]
          cases hy : x.yield? with
          | none => simp [hy] at hev
          | some y => simp
      have hle := hB _ _ _ _ hj2
      rcases hst3 : s2.step a false pc2 with ⟨s3, pc3, ev3⟩
      have hj3 := next hj2 hst3
      have hsr3 := Sys.step_stepR hst3
      cases hf3 : pc3.final with
      | true => exact ⟨_, _, _, _, hj3, hf3⟩
      | false =>
      have hp3 : pc3.suspended = false ∧ ev3 = none := by
        cases hsr3 with
        | fails => cases hf3
        | _ => first | exact ⟨rfl, rfl⟩ | cases hx
      obtain ⟨hp3, rfl⟩ := hp3
      refine ihm (B - (yields (ext h s ev s2)).length) (by omega) _ _ s3 pc3 _ ?_
        (Nat.le_refl _) hp3 hj3
      rw [ext_none]; exact Nat.le_refl _
    · have hs2 : pc2.suspended = false := by simpa using hx
      rcases stepBound_decr hr hsr hp hf with (hy | hy) | ⟨hy, _⟩
      · exact absurd hy hx
      · exact ⟨_, _, _, _, hj2, hy⟩
      · refine ihb (stepBound s2.queue pc2) ?_ _ s2 pc2 _ ?_ (Nat.le_refl _) hs2 hj2
        · rw [hsr.frame.queue]; omega
        · have : (yields h).length ≤ (yields (ext h s ev s2)).length := by
            cases ev with
            | none => simp
            | some x => rw [ext_some, yields_snoc]; simp
          omega
  exact key _ _ [] s1 .outer 0 (Nat.le_refl _) (Nat.le_refl _) rfl rfl

end GS
