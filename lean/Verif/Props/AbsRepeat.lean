import Verif.FullPasses
import Verif.Props.Absolute
/-!
# C48: nodes that execute at a fixed interval
-/

set_option linter.unusedSectionVars false

namespace GS
open Spec Props
variable {α κ W : Type _} [DecidableEq α] [DecidableEq κ]
variable {a : RunArgs α κ W} {abs : Bool} {s s' s0 s1 : Sys α κ W} {pc pc' : PC α}
  {ev : Option (Event α)} {E : Sys α κ W → Sys α κ W → Prop} {h : History α κ W}

/-- When a node with `TimeInterval(repeat=r)` is due: at the `k`-th yielded set. -/
def DueAt (L i : Nat) (T u r : Rat) (k : Nat) : Prop :=
  k % L = i ∧ Multiple (T + k * u - i * u) r

theorem Reach.repeatDue (hr : Reach E a s0 true h s pc) (hE : Keeps E fun s => s.clock a.id)
    (hQ : Keeps E fun s => s.queue) (hC : Keeps E fun s => s.conds)
    (hO : Keeps E fun s => s.store.owner) (hs1 : s0.start a = (s1, .ok true))
    {n : α} {o : OId} {r : Qty} {i : Nat} {si ei : Bool}
    (hn : Dict.get? s.conds n = some (.leaf o (.timeInterval (some r) none none si ei)))
    (ho : s.store.owner o = some n) (hr0 : 0 < r.val)
    (hi : At s0.queue i n) (hu : ∀ j, At s0.queue j n → j = i) :
    ∀ y ∈ timedSets a.id h, n ∈ y.2.1 ↔ y.1 = i ∧
      Multiple (y.2.2 - i * (s1.clock a.id).time.absolute_interval) r.val := by
  have hr0' : r.val ≠ 0 := by intro e; rw [e] at hr0; exact absurd hr0 (by decide)
  refine (hr.due hC hs1 hQ (D := fun t => Multiple (t - i * (s1.clock a.id).time.absolute_interval) r.val)
    (by rw [← hr.keepConds hC hs1]; exact hn) hi hu ?_).1
  intro h' s' pc' hr' hp'
  have hq := hr'.keepQueue hQ
  have hat := (hr'.absTimes hE hs1).2.2 hp'
  have ho' : s'.store.owner o = some n := by
    rw [hr'.keepOwner hO hs1, ← hr.keepOwner hO hs1]; exact ho
  obtain ⟨b, h1, h2⟩ := eval_repeat (v := s'.toView) (id := a.id) (si := si) (ei := ei) ho' hr0'
    (by rw [hq]; exact hi) (by rw [hq]; exact hu)
  exact ⟨b, _, h1, by rw [h2, hat.interval]⟩

theorem Reach.repeatRun (hr : Reach E a s0 true h s pc) (hE : Keeps E fun s => s.clock a.id)
    (hQ : Keeps E fun s => s.queue) (hC : Keeps E fun s => s.conds)
    (hO : Keeps E fun s => s.store.owner) (hs1 : s0.start a = (s1, .ok true))
    {n : α} {o : OId} {r : Qty} {i : Nat} {si ei : Bool}
    (hn : Dict.get? s.conds n = some (.leaf o (.timeInterval (some r) none none si ei)))
    (ho : s.store.owner o = some n) (hr0 : 0 < r.val)
    (hi : At s0.queue i n) (hu : ∀ j, At s0.queue j n → j = i)
    (hx : s0.mode = .exactTime → s0.queue.length = 1)
    (hf : FullPasses h s0.queue.length) :
    ∃ D : Nat, 0 < D ∧ D * (s1.clock a.id).time.absolute_interval = r.val ∧
      0 < (s1.clock a.id).time.absolute_interval ∧
      ((execTimes a.id n h = [] ∧ ∀ k < (timedSets a.id h).length,
          ¬ DueAt s0.queue.length i (s1.clock a.id).time.absolute
            (s1.clock a.id).time.absolute_interval r.val k) ∨
      ∃ k0 m, execTimes a.id n h = (List.range (m + 1)).map (fun j =>
          (s1.clock a.id).time.absolute + ((k0 + j * D : Nat) : Rat) *
            (s1.clock a.id).time.absolute_interval) ∧
        DueAt s0.queue.length i (s1.clock a.id).time.absolute
            (s1.clock a.id).time.absolute_interval r.val k0 ∧
        k0 + m * D < (timedSets a.id h).length ∧ (timedSets a.id h).length ≤ k0 + (m + 1) * D) := by
  have hdue := hr.repeatDue hE hQ hC hO hs1 hn ho hr0 hi hu
  have hst := Sys.start_ok hs1
  have hcs := hr.keepConds hC hs1
  obtain ⟨hk, _, _⟩ := hr.absTimes hE hs1
  have hpos := hr.positions hE hQ hs1 hf
  have hdet : Determines s1 a r := by
    have hm : (n, Cond.leaf o (.timeInterval (some r) none none si ei)) ∈ s1.conds := by
      rw [← hcs]; exact Dict.mem_of_get? hn
    exact .inl ⟨_, .inl ⟨n, hm⟩, .leaf⟩
  generalize (s1.clock a.id).time.absolute = T at *
  have hparts : parts s1 = s0.queue.length := by
    unfold parts
    cases hm : s1.mode with
    | standard => simp only; rw [hst.queue]
    | exactTime => simp only; rw [hx (by rw [← hst.mode]; exact hm)]
  rcases start_interval hs1 with ⟨hno, _⟩ | ⟨_, h0, hg⟩
  · exact absurd ⟨_, hdet⟩ hno
  rw [hparts] at h0 hg
  generalize (s1.clock a.id).time.absolute_interval = u at *
  obtain ⟨hgpos, ρ, hρ, hrρ⟩ := (hg.2.1 _ hdet).pos hr0 hg.1
  have hL : 0 < s0.queue.length := Nat.pos_of_ne_zero h0
  have hupos : 0 < u := by
    have h1 := parts_nonneg h0 hg.1
    have : u ≠ 0 := by rintro rfl; rw [Rat.mul_zero] at hgpos; exact absurd hgpos (by decide)
    grind
  refine ⟨ρ * s0.queue.length, Nat.mul_pos hρ hL, ?_, hupos, ?_⟩
  · rw [hrρ, Rat.natCast_mul]; grind
  · refine select_progression (timedSets a.id h) _ _ (fun k => T + (k : Rat) * u) _ (Nat.mul_pos hρ hL) ?_ ?_
    · intro k y hy
      have h1 := hk k y hy
      have h2 := hpos k y hy
      have h3 := hdue y (List.mem_of_getElem? hy)
      rw [h1, h2] at h3
      refine ⟨fun hp => ?_, fun hp => ?_⟩
      · simp only [if_pos (h3.mpr hp)]; rw [h1]
      · have : n ∉ y.2.1 := fun hm => hp (h3.mp hm)
        simp only [if_neg this]
    · intro j k hj hjk
      exact due_class hL hgpos rfl hrρ j k hj hjk

theorem filterMap_head_at {β γ : Type _} (f : β → Option γ) (l : List β) (i : Nat) {y : β} {t : γ}
    (hy : l[i]? = some y) (hf : f y = some t) (hb : ∀ k < i, ∀ z, l[k]? = some z → f z = none) :
    (l.filterMap f)[0]? = some t := by
  induction l generalizing i with
  | nil => simp at hy
  | cons x l ih =>
    cases i with
    | zero =>
      simp at hy; subst hy
      simp [hf]
    | succ i =>
      have hx := hb 0 (by omega) x rfl
      rw [List.filterMap_cons_none hx]
      exact ih i (by simpa using hy) (fun k hk z hz => hb (k + 1) (by omega) z (by simpa using hz))

end GS

namespace GS.Props
open Spec
variable {α κ W : Type _} [DecidableEq α] [DecidableEq κ]
variable {a : RunArgs α κ W} {abs : Bool} {s s' s0 s1 : Sys α κ W} {pc pc' : PC α}
  {ev : Option (Event α)} {E : Sys α κ W → Sys α κ W → Prop} {h : History α κ W}

/-- C48: if no pass is cut short, the executions of a node with `TimeInterval(repeat=r)`
are exactly `r` apart: the `k`-th one is `k` times `r` after the first, and since the last
one less than `r` has passed whenever a set is yielded.  Missing for the full property:
passes that are cut short by a termination condition without ending the run
(`C48_cut` shows that the claim is false then). -/
theorem C48_every_r_partial (hr : Reach E a s0 true h s pc) (hE : Keeps E fun s => s.clock a.id)
    (hQ : Keeps E fun s => s.queue) (hC : Keeps E fun s => s.conds)
    (hO : Keeps E fun s => s.store.owner)
    {n : α} {o : OId} {r : Qty} {i : Nat} {si ei : Bool}
    (hn : Dict.get? s.conds n = some (.leaf o (.timeInterval (some r) none none si ei)))
    (ho : s.store.owner o = some n) (hr0 : 0 < r.val)
    (hi : At s0.queue i n) (hu : ∀ j, At s0.queue j n → j = i)
    (hx : s0.mode = .exactTime → s0.queue.length = 1)
    (hf : FullPasses h s0.queue.length) :
    (∀ t0, (execTimes a.id n h)[0]? = some t0 →
      ∀ (k : Nat) t, (execTimes a.id n h)[k]? = some t → t = t0 + k * r.val) ∧
    (∀ t, (execTimes a.id n h).getLast? = some t → ∀ y ∈ timedSets a.id h, y.2.2 < t + r.val) := by
  obtain ⟨s1, hs1⟩ := hr.started
  obtain ⟨D, hD, hDu, hu0, hcase⟩ := hr.repeatRun hE hQ hC hO hs1 hn ho hr0 hi hu hx hf
  obtain ⟨hk, _, _⟩ := hr.absTimes hE hs1
  generalize (s1.clock a.id).time.absolute = T at *
  generalize (s1.clock a.id).time.absolute_interval = u at *
  rcases hcase with ⟨he, _⟩ | ⟨k0, m, he, _, _, hlen⟩
  · rw [he]; exact ⟨by simp, by simp⟩
  · have get : ∀ (k : Nat) t, (execTimes a.id n h)[k]? = some t → t = T + k0 * u + k * r.val := by
      intro k t ht
      rw [he, List.getElem?_map] at ht
      by_cases hkm : k < m + 1
      · rw [List.getElem?_range hkm] at ht
        simp only [Option.map_some, Option.some.injEq] at ht
        rw [← ht, ← hDu, Rat.natCast_add, Rat.natCast_mul]; grind
      · rw [List.getElem?_eq_none (by simp; omega)] at ht; cases ht
    refine ⟨fun t0 h0 k t ht => ?_, fun t ht y hy => ?_⟩
    · rw [get k t ht, get 0 t0 h0]; grind
    · have hl : (execTimes a.id n h)[m]? = some t := by
        rw [List.getLast?_eq_getElem?] at ht
        have : (execTimes a.id n h).length = m + 1 := by rw [he]; simp
        rw [this] at ht; exact ht
      obtain ⟨k, hk'⟩ := List.getElem?_of_mem hy
      have hlt : k < k0 + (m + 1) * D := by
        have := (List.getElem?_eq_some_iff.mp hk').1
        omega
      rw [hk k y hk', get m t hl]
      have h1 : (k : Rat) < ((k0 + (m + 1) * D : Nat) : Rat) := Rat.natCast_lt_natCast.mpr hlt
      have h2 := Rat.mul_lt_mul_of_pos_right h1 hu0
      have h3 : ((k0 + (m + 1) * D : Nat) : Rat) * u = k0 * u + m * r.val + r.val := by
        rw [← hDu, Rat.natCast_add, Rat.natCast_mul, Rat.natCast_add]; grind
      rw [h3] at h2
      grind

/-- C48 for termination conditions on absolute time, on calls or on finished nodes: these
never cut a pass short without ending the run. -/
theorem C48_every_r (hr : Reach E a s0 true h s pc) (hE : Keeps E fun s => s.clock a.id)
    (hQ : Keeps E fun s => s.queue) (hC : Keeps E fun s => s.conds)
    (hO : Keeps E fun s => s.store.owner)
    {n : α} {o : OId} {r : Qty} {i : Nat} {si ei : Bool}
    (hn : Dict.get? s.conds n = some (.leaf o (.timeInterval (some r) none none si ei)))
    (ho : s.store.owner o = some n) (hr0 : 0 < r.val)
    (hi : At s0.queue i n) (hu : ∀ j, At s0.queue j n → j = i)
    (hx : s0.mode = .exactTime → s0.queue.length = 1)
    (h1 : NoTicks a.esu) (h2 : NoTicks a.seq) :
    (∀ t0, (execTimes a.id n h)[0]? = some t0 →
      ∀ (k : Nat) t, (execTimes a.id n h)[k]? = some t → t = t0 + k * r.val) ∧
    (∀ t, (execTimes a.id n h).getLast? = some t → ∀ y ∈ timedSets a.id h, y.2.2 < t + r.val) :=
  C48_every_r_partial hr hE hQ hC hO hn ho hr0 hi hu hx (hr.fullPasses hQ h1 h2)

/-- C48, the first execution: if the first set of the run is yielded at a multiple of `r`
(for instance at time 0), the node executes in the first set chosen from its consideration
set, which is number `i`. -/
theorem C48_first (hr : Reach E a s0 true h s pc) (hE : Keeps E fun s => s.clock a.id)
    (hQ : Keeps E fun s => s.queue) (hC : Keeps E fun s => s.conds)
    (hO : Keeps E fun s => s.store.owner)
    {n : α} {o : OId} {r : Qty} {i : Nat} {si ei : Bool}
    (hn : Dict.get? s.conds n = some (.leaf o (.timeInterval (some r) none none si ei)))
    (ho : s.store.owner o = some n) (hr0 : 0 < r.val)
    (hi : At s0.queue i n) (hu : ∀ j, At s0.queue j n → j = i)
    (hf : FullPasses h s0.queue.length)
    {y0 y : Nat × List α × Rat} (hy0 : (timedSets a.id h)[0]? = some y0) (hm : Multiple y0.2.2 r.val)
    (hy : (timedSets a.id h)[i]? = some y) :
    (execTimes a.id n h)[0]? = some y.2.2 := by
  obtain ⟨s1, hs1⟩ := hr.started
  have hdue := hr.repeatDue hE hQ hC hO hs1 hn ho hr0 hi hu
  obtain ⟨hk, _, _⟩ := hr.absTimes hE hs1
  have hpos := hr.positions hE hQ hs1 hf
  have hiL : i < s0.queue.length := by
    obtain ⟨l, hl, _⟩ := hi
    exact (List.getElem?_eq_some_iff.mp hl).1
  refine filterMap_head_at _ _ i hy ?_ ?_
  · have : n ∈ y.2.1 := by
      rw [hdue y (List.mem_of_getElem? hy), hpos i y hy, hk i y hy, Nat.mod_eq_of_lt hiL]
      refine ⟨rfl, ?_⟩
      have e := hk 0 y0 hy0
      rw [e] at hm
      have e2 : ∀ T u : Rat, T + (i : Rat) * u - i * u = T + ((0 : Nat) : Rat) * u := by
        intro T u
        have : ((0 : Nat) : Rat) = 0 := rfl
        rw [this]; grind
      rw [e2]; exact hm
    simp only [if_pos this]
  · intro k hki z hz
    have : n ∉ z.2.1 := by
      intro hm
      have := ((hdue z (List.mem_of_getElem? hz)).mp hm).1
      rw [hpos k z hz, Nat.mod_eq_of_lt (by omega)] at this
      omega
    simp only [if_neg this]

/-- The hypotheses hold for node 1 of the example in every state of its run. -/
theorem ticking_every (k : Nat) :
    ∀ t0, (execTimes none 1 (runAfter ticking untilTwelve k).1)[0]? = some t0 →
      ∀ (j : Nat) t, (execTimes none 1 (runAfter ticking untilTwelve k).1)[j]? = some t →
        t = t0 + j * 3 := by
  have hr := ticking_reach (fun s s' => s' = s) k
  have hs1 : ticking.start untilTwelve = ((ticking.start untilTwelve).1, .ok true) :=
    Prod.ext rfl ticking_start
  have hc := hr.keepConds (fun s s' e => by rw [e]) hs1
  have ho := hr.keepOwner (fun s s' e => by rw [e]) hs1
  have hv : (⟨3, 0⟩ : Qty).val = 3 := by decide +kernel
  have := (C48_every_r hr (fun s s' e => by rw [e]) (fun s s' e => by rw [e])
    (fun s s' e => by rw [e]) (fun s s' e => by rw [e]) (n := 1) (o := 1) (r := ⟨3, 0⟩) (i := 1)
    (si := true) (ei := true) (by rw [hc]; rfl) (by rw [ho]; rfl) (by decide +kernel)
    ⟨[1], rfl, by simp⟩ (by
      rintro j ⟨l, hl, hm⟩
      have hq : ticking.queue = [[0], [1]] := by decide +kernel
      rw [hq] at hl
      match j, hl with
      | 0, hl => cases hl; simp at hm
      | 1, _ => rfl
      | j + 2, hl => simp at hl) (fun h => by cases h) trivial trivial).1
  rw [hv] at this
  exact this

/-- In the example, node 0 executes at 0, 2, 4, ... and node 1 at 1/2, 3 + 1/2, ... -/
example : execTimes none 0 (runAfter ticking untilTwelve 400).1 = [0, 2, 4, 6, 8, 10] ∧
    execTimes none 1 (runAfter ticking untilTwelve 400).1 = [1/2, 7/2, 13/2, 19/2] := by
  decide +kernel

/-- Graph `0 -> 1`, where node 1 has the condition `TimeInterval(repeat=2)`. -/
def cutting : Sys Nat Nat Unit :=
  (((Sys.new [(1, [0])] .standard none 1 demoWorld).alloc 2).addBasic 0 (.leaf 0 .always)).addBasic 1
    (.leaf 1 (.timeInterval (some ⟨2, 0⟩) none none true true))

/-- A run with the termination condition `All(AtConsiderationSetExecution(3), AtPass(1))`
(and one for the environment sequence that is never satisfied).  It is satisfied in the
middle of the second pass, but not any more when the run would end. -/
def cut : RunArgs Nat Nat Unit :=
  { id := none, esu := .all 10 [.leaf 11 (.atConsiderationSetExecution 3 .environment_state_update),
      .leaf 12 (.atPass 1 .environment_state_update)], seq := .leaf 13 .never }

/-- C48 is false in general: with the termination condition above, which cuts the second
pass short without ending the run, node 1 executes at time 1 and not any more, at least
until time 20. -/
theorem C48_cut : Reach (fun s s' => s' = s) cut cutting true (runAfter cutting cut 150).1
      (runAfter cutting cut 150).2.1 (runAfter cutting cut 150).2.2 ∧
    execTimes none 1 (runAfter cutting cut 150).1 = [1] ∧
    ∃ y ∈ timedSets none (runAfter cutting cut 150).1, y.2.2 = 20 := by
  refine ⟨run_reach (by decide +kernel) _ _, by decide +kernel, by decide +kernel⟩

end GS.Props
