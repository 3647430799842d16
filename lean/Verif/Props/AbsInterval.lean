import Verif.Props.AbsRepeat
import Verif.Props.AbsExact
/-!
# C60: when a node with a `TimeInterval` condition executes
-/

set_option linter.unusedSectionVars false

namespace GS
open Spec Props
variable {α κ W : Type _} [DecidableEq α] [DecidableEq κ]
variable {a : RunArgs α κ W} {abs : Bool} {s s' s0 s1 : Sys α κ W} {pc pc' : PC α}
  {ev : Option (Event α)} {E : Sys α κ W → Sys α κ W → Prop} {h : History α κ W}

/-- Where the grid of the repeat interval begins. -/
def gridOffset (v : View α κ W) (id : Option κ) (own : Option α) : Option Qty → Option Rat
  | some b => if v.inExactTimeMode then some b.val
              else layerOffset own (v.clock id).time.absolute_interval v.queue
  | none => layerOffset own (v.clock id).time.absolute_interval v.queue

/-- The test of the start time. -/
def startOk (si : Bool) (t : Rat) : Option Qty → Bool
  | none => true
  | some s => if si then decide (s.val ≤ t) else decide (s.val < t)

/-- The test of the end time. -/
def endOk (ei : Bool) (t : Rat) : Option Qty → Bool
  | none => true
  | some e => if ei then decide (t ≤ e.val) else decide (t < e.val)

theorem timeInterval_eq (v : View α κ W) (id : Option κ) (own : Option α) (rep st fi : Option Qty)
    (si ei : Bool) : timeIntervalFunc v id own rep st fi si ei =
      match repeatOk (v.clock id).time.absolute (gridOffset v id own st) rep with
      | .error e => .error e
      | .ok r => .ok (r && startOk si (v.clock id).time.absolute st &&
          endOk ei (v.clock id).time.absolute fi) := by
  cases st <;> cases fi <;> rfl

theorem startOk_iff {si : Bool} {t : Rat} {st : Option Qty} : startOk si t st = true ↔
    ∀ b, st = some b → if si = true then b.val ≤ t else b.val < t := by
  cases st with
  | none => simp [startOk]
  | some b => cases si <;> simp [startOk]

theorem endOk_iff {ei : Bool} {t : Rat} {fi : Option Qty} : endOk ei t fi = true ↔
    ∀ e, fi = some e → if ei = true then t ≤ e.val else t < e.val := by
  cases fi with
  | none => simp [endOk]
  | some b => cases ei <;> simp [endOk]

theorem timeInterval_ok {v : View α κ W} {id : Option κ} {own : Option α} {rep st fi : Option Qty}
    {si ei : Bool} {off : Rat} (hr : ∀ r, rep = some r → r.val ≠ 0)
    (ho : gridOffset v id own st = some off) :
    ∃ b, timeIntervalFunc v id own rep st fi si ei = .ok b ∧
      (b = true ↔ OnGrid rep off (v.clock id).time.absolute ∧
        Within st fi si ei (v.clock id).time.absolute) := by
  rw [timeInterval_eq, ho]
  cases rep with
  | none =>
    refine ⟨_, rfl, ?_⟩
    rw [Bool.and_eq_true, Bool.and_eq_true, startOk_iff, endOk_iff]
    unfold OnGrid Within
    simp
  | some r =>
    simp only [repeatOk, if_neg (hr r rfl)]
    refine ⟨_, rfl, ?_⟩
    rw [Bool.and_eq_true, Bool.and_eq_true, startOk_iff, endOk_iff, decide_eq_true_eq,
      ratMod_eq_zero (hr r rfl)]
    unfold OnGrid Within
    simp [and_assoc]

theorem Reach.layerPos (hr : Reach E a s0 abs h s pc) (hQ : Keeps E fun s => s.queue) :
    ∀ y ∈ timedSets a.id h, y.1 < s0.queue.length := by
  intro y hy
  unfold timedSets at hy
  obtain ⟨e, he, hs⟩ := List.mem_filterMap.mp hy
  obtain ⟨h1, h2, rfl⟩ := List.append_of_mem he
  obtain ⟨q, q', hq, hst, _⟩ := hr.entry h1 e h2 rfl
  unfold timedSet? at hs
  split at hs
  · rename_i i set hev
    cases hs
    have hst := Sys.step_stepR hst
    rw [hev] at hst
    generalize e.after = sa at hst
    have key : ∀ c, q = .choosing c → c.idx < s0.queue.length := by
      rintro c rfl
      have := (hq.choice c rfl).queue
      rw [hq.keepQueue hQ] at this
      exact (List.getElem?_eq_some_iff.mp this).1
    cases hst with
    | yield => exact key _ rfl
    | yieldAbs => exact key _ rfl
    | fails _ _ hev => rcases hev with h | ⟨_, h, _⟩ <;> cases h
  · cases hs

end GS

namespace GS.Props
open Spec
variable {α κ W : Type _} [DecidableEq α] [DecidableEq κ]
variable {a : RunArgs α κ W} {abs : Bool} {s s' s0 s1 : Sys α κ W} {pc pc' : PC α}
  {ev : Option (Event α)} {E : Sys α κ W → Sys α κ W → Prop} {h : History α κ W}

/-- C60: in absolute-time mode a node with `TimeInterval(repeat, start, end)` is in a set
exactly if the set is chosen from the node's consideration set (number `i`), the time is in
the interval and on the grid of the repeat interval.  The grid begins `i` intervals of the
clock after 0 if there is no start time, or if there are several consideration sets; see
`C60_when_exact` for the other case. -/
theorem C60_when (hr : Reach E a s0 true h s pc) (hE : Keeps E fun s => s.clock a.id)
    (hQ : Keeps E fun s => s.queue) (hM : Keeps E fun s => s.mode) (hC : Keeps E fun s => s.conds)
    (hO : Keeps E fun s => s.store.owner) (hp : ∀ e, pc ≠ .raised e)
    {n : α} {o : OId} {rep st fi : Option Qty} {i : Nat} {si ei : Bool}
    (hn : Dict.get? s.conds n = some (.leaf o (.timeInterval rep st fi si ei)))
    (ho : s.store.owner o = some n) (hr0 : ∀ r, rep = some r → r.val ≠ 0)
    (hi : At s0.queue i n) (hu : ∀ j, At s0.queue j n → j = i)
    (hst : st = none ∨ (s0.mode = .standard ∧ s0.queue.length ≠ 1)) :
    ∀ y ∈ timedSets a.id h, n ∈ y.2.1 ↔ y.1 = i ∧
      OnGrid rep (i * (s.clock a.id).time.absolute_interval) y.2.2 ∧ Within st fi si ei y.2.2 := by
  obtain ⟨s1, hs1⟩ := hr.started
  rw [((hr.absTimes hE hs1).2.2 hp).interval]
  refine (hr.due hC hs1 hQ (D := fun t =>
    OnGrid rep (i * (s1.clock a.id).time.absolute_interval) t ∧ Within st fi si ei t)
    (by rw [← hr.keepConds hC hs1]; exact hn) hi hu ?_).1
  intro h' s' pc' hr' hp'
  have hq := hr'.keepQueue hQ
  have hm := hr'.keep (fun s => s.mode) hM (fun s s' f => f.mode) (fun s h => h.mode)
  have hat := (hr'.absTimes hE hs1).2.2 hp'
  have ho' : s'.store.owner o = some n := by
    rw [hr'.keepOwner hO hs1, ← hr.keepOwner hO hs1]; exact ho
  have hoff : gridOffset s'.toView a.id (some n) st =
      some (i * (s1.clock a.id).time.absolute_interval) := by
    have hl : layerOffset (some n) (s'.clock a.id).time.absolute_interval s'.queue =
        some (i * (s1.clock a.id).time.absolute_interval) := by
      rw [hat.interval]
      exact layerOffset_at _ (by rw [hq]; exact hi) (by rw [hq]; exact hu)
    cases st with
    | none => exact hl
    | some b =>
      rcases hst with h | ⟨h1, h2⟩
      · cases h
      · have : s'.inExactTimeMode = false := by
          unfold View.inExactTimeMode
          simp [hm, hq, h1, h2]
        simp only [gridOffset, this, Bool.false_eq_true, if_false]
        exact hl
  obtain ⟨b, h1, h2⟩ := timeInterval_ok (v := s'.toView) (id := a.id) (own := some n) (rep := rep)
    (st := st) (fi := fi) (si := si) (ei := ei) hr0 hoff
  refine ⟨b, s'.store, ?_, h2⟩
  simp only [eval, evalLeaf, ho', h1]

/-- C60: in exact-time mode, or with a single consideration set, the grid begins at the
start time: the node executes only at `start`, `start + repeat`, `start + 2 * repeat`, ... -/
theorem C60_when_exact (hr : Reach E a s0 true h s pc)
    (hQ : Keeps E fun s => s.queue) (hM : Keeps E fun s => s.mode) (hC : Keeps E fun s => s.conds)
    {n : α} {o : OId} {rep fi : Option Qty} {b : Qty} {i : Nat} {si ei : Bool}
    (hn : Dict.get? s.conds n = some (.leaf o (.timeInterval rep (some b) fi si ei)))
    (hr0 : ∀ r, rep = some r → 0 < r.val)
    (hi : At s0.queue i n) (hu : ∀ j, At s0.queue j n → j = i)
    (hst : s0.mode = .exactTime ∨ s0.queue.length = 1) :
    ∀ y ∈ timedSets a.id h, n ∈ y.2.1 ↔ y.1 = i ∧
      (∀ r, rep = some r → ∃ k : Nat, y.2.2 = b.val + k * r.val) ∧ Within (some b) fi si ei y.2.2 := by
  obtain ⟨s1, hs1⟩ := hr.started
  have key := (hr.due hC hs1 hQ (D := fun t =>
    OnGrid rep b.val t ∧ Within (some b) fi si ei t)
    (by rw [← hr.keepConds hC hs1]; exact hn) hi hu (by
      intro h' s' pc' hr' hp'
      have hq := hr'.keepQueue hQ
      have hm := hr'.keep (fun s => s.mode) hM (fun s s' f => f.mode) (fun s h => h.mode)
      have hx : s'.inExactTimeMode = true := by
        unfold View.inExactTimeMode
        rcases hst with h | h <;> simp [hm, hq, h]
      obtain ⟨b', h1, h2⟩ := timeInterval_ok (v := s'.toView) (id := a.id) (own := s'.store.owner o)
        (rep := rep) (st := some b) (fi := fi) (si := si) (ei := ei) (off := b.val)
        (fun r hr => by have := hr0 r hr; intro e; rw [e] at this; exact absurd this (by decide))
        (by simp only [gridOffset, hx, if_true])
      refine ⟨b', s'.store, ?_, h2⟩
      simp only [eval, evalLeaf, h1])).1
  intro y hy
  rw [key y hy]
  refine and_congr_right fun _ => and_congr_left fun hw => forall_congr' fun r => forall_congr' fun hr => ?_
  have hpos := hr0 r hr
  have hb : b.val ≤ y.2.2 := by
    have := hw.1 b rfl
    split at this <;> grind
  constructor
  · rintro ⟨z, hz⟩
    have hz0 : 0 ≤ z := by
      rcases Int.lt_or_le z 0 with hlt | hle
      · have : (z : Rat) ≤ -1 := by
          have := Rat.intCast_le_intCast (a := z) (b := -1) |>.mpr (by omega)
          simpa using this
        have := Rat.mul_le_mul_of_nonneg_right this (Rat.le_of_lt hpos)
        grind
      · exact hle
    obtain ⟨m, rfl⟩ : ∃ m : Nat, z = m := ⟨z.toNat, by omega⟩
    refine ⟨m, ?_⟩
    have h6 : ((m : Int) : Rat) = (m : Rat) := rfl
    rw [h6] at hz
    grind
  · rintro ⟨k, hk⟩
    refine ⟨k, ?_⟩
    have h6 : ((k : Int) : Rat) = (k : Rat) := rfl
    rw [h6, hk]; grind

/-- C60: in exact-time mode a node with `TimeInterval(repeat=r, start=b, end=e)` and an
inclusive start time executes at every time `b + k * r` in the interval that is not before
the starting time of the run and not after its last set. -/
theorem C60_every (hr : Reach E a s0 true h s pc) (hE : Keeps E fun s => s.clock a.id)
    (hQ : Keeps E fun s => s.queue) (hM : Keeps E fun s => s.mode) (hC : Keeps E fun s => s.conds)
    (hp : ∀ e, pc ≠ .raised e) (hm : s0.mode = .exactTime) (hq1 : s0.queue.length = 1)
    (hs : Multiple (s0.clock a.id).time.absolute (s.clock a.id).time.absolute_interval)
    {n : α} {o : OId} {r b : Qty} {fi : Option Qty} {i : Nat} {ei : Bool}
    (hn : Dict.get? s.conds n = some (.leaf o (.timeInterval (some r) (some b) fi true ei)))
    (hr0 : 0 < r.val) (hi : At s0.queue i n) (hu : ∀ j, At s0.queue j n → j = i)
    (k : Nat) (hc : (s0.clock a.id).time.absolute ≤ b.val + k * r.val)
    (he : Within (some b) fi true ei (b.val + k * r.val))
    {y : Nat × List α × Rat} (hy : y ∈ timedSets a.id h) (hl : b.val + k * r.val ≤ y.2.2) :
    b.val + k * r.val ∈ execTimes a.id n h := by
  obtain ⟨s1, hs1⟩ := hr.started
  obtain ⟨hk, _, hat⟩ := hr.absTimes hE hs1
  rw [(hat hp).interval] at hs
  have hm1 : s1.mode = .exactTime := by rw [(Sys.start_ok hs1).mode, hm]
  have hin : InForce s1 a (.leaf o (.timeInterval (some r) (some b) fi true ei)) :=
    .inl ⟨n, by rw [← hr.keepConds hC hs1]; exact Dict.mem_of_get? hn⟩
  have hdr : Determines s1 a r := .inl ⟨_, hin, .leaf⟩
  have htu : TimeUsed s1 a b := ⟨_, hin, .start⟩
  have hdb : Determines s1 a b := .inr ⟨hm1, htu⟩
  obtain ⟨hu0, hg⟩ := exactUnit hs1 hm1 hdr
  have hT : Multiple (s1.clock a.id).time.absolute (s1.clock a.id).time.absolute_interval := by
    rcases (start_time hs1).2 with e | e | ⟨q', hq', e⟩
    · rw [e]; exact hs
    · rw [e]; exact .zero _
    · rw [e]; exact hg.2.1 _ (.inr ⟨hm1, hq'⟩)
  have hmul : Multiple (b.val + k * r.val) (s1.clock a.id).time.absolute_interval := by
    refine (hg.2.1 _ hdb).add ?_
    obtain ⟨z, hz⟩ := hg.2.1 _ hdr
    refine ⟨k * z, ?_⟩
    rw [hz, Rat.intCast_mul]
    have h6 : ((k : Int) : Rat) = (k : Rat) := rfl
    rw [h6]; grind
  have hkr : 0 ≤ (k : Rat) * r.val := Rat.mul_nonneg (Rat.natCast_nonneg) (Rat.le_of_lt hr0)
  have hTle : (s1.clock a.id).time.absolute ≤ b.val + k * r.val := by
    rcases Sys.start_abs hs1 with ⟨h, _⟩ | ⟨_, _, u, hu, hcl⟩
    · cases h
    · have e : (s1.clock a.id).time.absolute =
          Sys.advanceTo (s0.clock a.id).time.absolute (s1.absoluteConds a) := by rw [hcl]
      obtain ⟨c, hmc, hpc⟩ := (timeUsed_iff s1 a b).mp htu
      have h1 := advanceTo_le (cur := (s0.clock a.id).time.absolute) hmc
      have h2 := firstPoint_le hpc
      rw [e]
      grind
  obtain ⟨y', hy', ht'⟩ := hits_of_multiple hu0 hk hT hmul hTle hy hl
  have hpos : y'.1 = i := by
    have hi0 : i = 0 := by
      obtain ⟨l, hl, _⟩ := hi
      have := (List.getElem?_eq_some_iff.mp hl).1
      omega
    have := hr.layerPos hQ y' hy'
    omega
  have hmem : n ∈ y'.2.1 := by
    rw [C60_when_exact hr hQ hM hC hn (fun r' e => by cases e; exact hr0) hi hu (.inl hm) y' hy']
    refine ⟨hpos, fun r' e => ?_, by rw [ht']; exact he⟩
    cases e; exact ⟨k, ht'⟩
  unfold execTimes
  rw [List.mem_filterMap]
  exact ⟨y', hy', by rw [if_pos hmem, ht']⟩

/-- A scheduler in exact-time mode in which node 1 has `TimeInterval(repeat=3, start=4, end=11)`. -/
def interval : Sys Nat Nat Unit :=
  (((Sys.new [(1, [0])] .exactTime none 1 demoWorld).alloc 2).addBasic 0
    (.leaf 0 (.timeInterval (some ⟨2, 0⟩) none none true true))).addBasic 1
    (.leaf 1 (.timeInterval (some ⟨3, 0⟩) (some ⟨4, 0⟩) (some ⟨11, 0⟩) true true))

example : execTimes none 1 (runAfter interval untilTwelve 200).1 = [4, 7, 10] ∧
    execTimes none 0 (runAfter interval untilTwelve 200).1 = [0, 2, 4, 6, 8, 10] := by decide +kernel

/-- The hypotheses hold in it. -/
example : Reach (fun s s' => s' = s) untilTwelve interval true (runAfter interval untilTwelve 200).1
      (runAfter interval untilTwelve 200).2.1 (runAfter interval untilTwelve 200).2.2 ∧
    interval.mode = .exactTime ∧ interval.queue = [[0, 1]] ∧ (interval.clock none).time.absolute = 0 ∧
    Within (some ⟨4, 0⟩) (some ⟨11, 0⟩) true true 10 :=
  ⟨run_reach (by decide +kernel) _ _, rfl, by decide +kernel, by decide +kernel,
    fun b hb => by cases hb; decide +kernel, fun b hb => by cases hb; decide +kernel⟩

/-- In standard mode the grid does not begin at the start time: node 1 of the graph `0 -> 1`
with `TimeInterval(repeat=3, start=4)` executes half a unit after multiples of 3. -/
def standardInterval : Sys Nat Nat Unit :=
  (((Sys.new [(1, [0])] .standard none 1 demoWorld).alloc 2).addBasic 0
    (.leaf 0 (.timeInterval (some ⟨2, 0⟩) none none true true))).addBasic 1
    (.leaf 1 (.timeInterval (some ⟨3, 0⟩) (some ⟨4, 0⟩) none true true))

example : execTimes none 1 (runAfter standardInterval untilTwelve 400).1 = [13/2, 19/2] := by
  decide +kernel

end GS.Props
