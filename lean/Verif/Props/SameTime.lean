import Verif.Spec.SameTime
import Verif.Props.AbsExact
import Verif.Props.AbsInterval
import Verif.Props.AbsTerm
import Verif.Props.Instances
import Verif.Props.Safe
/-!
# C114, C115: which nodes execute at the same absolute time, and whether time passes
-/

set_option linter.unusedSectionVars false

namespace GS
open Spec Props
variable {α κ W : Type _} [DecidableEq α] [DecidableEq κ]
variable {a : RunArgs α κ W} {abs : Bool} {s s' s0 s1 : Sys α κ W} {pc pc' : PC α}
  {ev : Option (Event α)} {E : Sys α κ W → Sys α κ W → Prop} {h : History α κ W}

theorem timePasses_congr (hc : s'.conds = s.conds) (hm : s'.mode = s.mode)
    (hd : s'.defaultUnit = s.defaultUnit) : TimePasses s' a ↔ TimePasses s a := by
  unfold TimePasses DecidesPace; rw [repeatUsed_congr hc, timeUsed_congr hc, hm, hd]

theorem timeStands_congr (hc : s'.conds = s.conds) (hm : s'.mode = s.mode) :
    TimeStands s' a ↔ TimeStands s a := by
  unfold TimeStands DecidesPace; rw [repeatUsed_congr hc, timeUsed_congr hc, hm]

theorem interval_pos (hs1 : s0.start a = (s1, .ok true)) (ht : TimePasses s1 a) :
    0 < (s1.clock a.id).time.absolute_interval := by
  rcases start_interval hs1 with ⟨_, h⟩ | ⟨hd, hp, hg⟩
  · rw [h, ← (Sys.start_ok hs1).defaultUnit]; exact ht.1
  · obtain ⟨q, hq, h0⟩ := ht.2 hd
    have h1 := parts_nonneg hp hg.1
    have h2 : (s1.clock a.id).time.absolute_interval ≠ 0 := by
      intro e
      obtain ⟨k, hk⟩ := hg.2.1 q hq
      rw [e] at hk
      apply h0; rw [hk]; simp
    grind

theorem interval_zero (hs1 : s0.start a = (s1, .ok true)) (ht : TimeStands s1 a) :
    (s1.clock a.id).time.absolute_interval = 0 := by
  rcases start_interval hs1 with ⟨hn, _⟩ | ⟨_, hp, hg⟩
  · exact absurd ht.1 hn
  · obtain ⟨k, hk⟩ := hg.2.2 0 (fun q hq => ⟨0, by rw [ht.2 q hq]; simp⟩)
    rw [Rat.mul_zero] at hk
    rcases Rat.mul_eq_zero.mp hk with h | h
    · have hp' : (0 : Rat) < (parts s1 : Nat) := Rat.natCast_pos.mpr (Nat.pos_of_ne_zero hp)
      rw [h] at hp'; exact absurd hp' (by decide)
    · exact h

theorem Reach.timedLayer (hr : Reach E a s0 abs h s pc) (hQ : Keeps E fun s => s.queue) :
    ∀ y ∈ timedSets a.id h, ∀ n ∈ y.2.1, At s0.queue y.1 n := by
  intro y hy n hn
  unfold timedSets at hy
  obtain ⟨e, he, hx⟩ := List.mem_filterMap.mp hy
  obtain ⟨u, v, huv⟩ := mem_split he
  unfold timedSet? at hx
  split at hx
  · rename_i i set hev
    cases hx
    obtain ⟨c, hc, rfl, rfl, _⟩ := hr.layerEntry (h1 := u) (h2 := v) huv hev
    have ci := hc.choice c rfl
    exact ⟨c.layer, by rw [← hc.keepQueue hQ]; exact ci.queue, ci.sub n hn⟩
  · cases hx

theorem Reach.timePasses (hr : Reach E a s0 true h s pc) (hC : Keeps E fun s => s.conds)
    (hM : Keeps E fun s => s.mode) (hD : Keeps E fun s => s.defaultUnit)
    (hs1 : s0.start a = (s1, .ok true)) (ht : TimePasses s a) : TimePasses s1 a := by
  refine (timePasses_congr (hr.keepConds hC hs1) ?_ ?_).mp ht
  · rw [(Sys.start_ok hs1).mode]
    exact hr.keep (fun s => s.mode) hM (fun s s' f => f.mode) (fun s h => h.mode)
  · rw [(Sys.start_ok hs1).defaultUnit]
    exact hr.keep (fun s => s.defaultUnit) hD (fun s s' f => f.defaultUnit) (fun s h => h.defaultUnit)

theorem Reach.timeStands (hr : Reach E a s0 true h s pc) (hC : Keeps E fun s => s.conds)
    (hM : Keeps E fun s => s.mode)
    (hs1 : s0.start a = (s1, .ok true)) (ht : TimeStands s a) : TimeStands s1 a := by
  refine (timeStands_congr (hr.keepConds hC hs1) ?_).mp ht
  rw [(Sys.start_ok hs1).mode]
  exact hr.keep (fun s => s.mode) hM (fun s s' f => f.mode) (fun s h => h.mode)

theorem mul_lt_of_pos {u : Rat} (hu : 0 < u) {i j : Nat} (h : i < j) :
    (i : Rat) * u < (j : Rat) * u := by
  have h1 : ((i + 1 : Nat) : Rat) ≤ (j : Rat) := Rat.natCast_le_natCast.mpr h
  have h2 := Rat.mul_le_mul_of_nonneg_right h1 (Rat.le_of_lt hu)
  rw [Rat.natCast_add] at h2
  have h3 : ((1 : Nat) : Rat) = 1 := rfl
  rw [h3] at h2
  grind

/-- Some multiple of a positive number exceeds any given number. -/
theorem exists_mul_gt {u : Rat} (hu : 0 < u) (t : Rat) : ∃ N : Nat, t < (N : Rat) * u := by
  refine ⟨(t / u).ceil.toNat + 1, ?_⟩
  have h1 : t / u ≤ ((t / u).ceil : Rat) := Rat.le_ceil
  have h2 : ((t / u).ceil : Rat) ≤ (((t / u).ceil.toNat : Int) : Rat) :=
    Rat.intCast_le_intCast.mpr (by omega)
  have h3 : t / u ≤ ((t / u).ceil.toNat : Rat) := Rat.le_trans h1 h2
  have h4 := Rat.mul_le_mul_of_nonneg_right h3 (Rat.le_of_lt hu)
  have h5 : t / u * u = t := Rat.div_mul_cancel (by grind)
  rw [h5] at h4
  have h6 := mul_lt_of_pos hu (Nat.lt_succ_self (t / u).ceil.toNat)
  grind

end GS

namespace GS.Props
open Spec
variable {α κ W : Type _} [DecidableEq α] [DecidableEq κ]
variable {a : RunArgs α κ W} {abs : Bool} {s s' s0 s1 : Sys α κ W} {pc pc' : PC α}
  {ev : Option (Event α)} {E : Sys α κ W → Sys α κ W → Prop} {h : History α κ W}

/-- C115: each set of a run in absolute-time mode is yielded at a later time than the sets
before it.  Missing for the full property: exact-time mode when all times that decide how
far apart the sets are equal 0 (`C115_stands` shows that time stands still then). -/
theorem C115_later_partial (hr : Reach E a s0 true h s pc) (hE : Keeps E fun s => s.clock a.id)
    (hC : Keeps E fun s => s.conds) (hM : Keeps E fun s => s.mode)
    (hD : Keeps E fun s => s.defaultUnit) (ht : TimePasses s a) {i j : Nat} (hij : i < j)
    {y z : Nat × List α × Rat} (hy : (timedSets a.id h)[i]? = some y)
    (hz : (timedSets a.id h)[j]? = some z) : y.2.2 < z.2.2 := by
  obtain ⟨s1, hs1⟩ := hr.started
  obtain ⟨hk, _, _⟩ := hr.absTimes hE hs1
  have hu := interval_pos hs1 (hr.timePasses hC hM hD hs1 ht)
  rw [hk i y hy, hk j z hz]
  have := mul_lt_of_pos hu hij
  grind

/-- C115: every time `t` is passed after a number `N` of sets that is known when the run
starts.  Missing for the full property: as in `C115_later_partial`. -/
theorem C115_reaches_partial {s1 : Sys α κ W} (hs1 : s0.start a = (s1, .ok true))
    (ht : TimePasses s1 a) (t : Rat) :
    ∃ N : Nat, ∀ E h s pc, Reach E a s0 true h s pc → Keeps E (fun s => s.clock a.id) →
      ∀ (k : Nat) y, N ≤ k → (timedSets a.id h)[k]? = some y → t < y.2.2 := by
  have hu := interval_pos hs1 ht
  obtain ⟨N, hN⟩ := exists_mul_gt hu (t - (s1.clock a.id).time.absolute)
  refine ⟨N, fun E h s pc hr hE k y hk hy => ?_⟩
  rw [(hr.absTimes hE hs1).1 k y hy]
  have h1 := Rat.mul_le_mul_of_nonneg_right (Rat.natCast_le_natCast.mpr hk) (Rat.le_of_lt hu)
  grind

/-- C115 is false if all times that decide how far apart the sets are equal 0: all sets of
the run are yielded at the same time. -/
theorem C115_stands (hr : Reach E a s0 true h s pc) (hE : Keeps E fun s => s.clock a.id)
    (hC : Keeps E fun s => s.conds) (hM : Keeps E fun s => s.mode) (ht : TimeStands s a)
    {y z : Nat × List α × Rat} (hy : y ∈ timedSets a.id h) (hz : z ∈ timedSets a.id h) :
    y.2.2 = z.2.2 := by
  obtain ⟨s1, hs1⟩ := hr.started
  obtain ⟨hk, _, _⟩ := hr.absTimes hE hs1
  have hu := interval_zero hs1 (hr.timeStands hC hM hs1 ht)
  obtain ⟨i, hi⟩ := List.getElem?_of_mem hy
  obtain ⟨j, hj⟩ := List.getElem?_of_mem hz
  rw [hk i y hi, hk j z hj, hu, Rat.mul_zero, Rat.mul_zero]

/-- C115: and then a run with `TimeTermination(t)` whose time is still to come never
returns. -/
theorem C115_never_ends (hr : Reach E a s0 true h s pc) (hE : Keeps E fun s => s.clock a.id)
    (hC : Keeps E fun s => s.conds) (hM : Keeps E fun s => s.mode) (ht : TimeStands s a)
    (hm : s0.mode = .exactTime) (hd : 0 ≤ s0.defaultUnit)
    {o o' : OId} {t : Qty} {incl : Bool}
    (hesu : a.esu = .leaf o (.timeTermination t incl)) (hseq : a.seq = .leaf o' .never)
    (hc : BeforeTime t.val incl (s0.clock a.id).time.absolute) (h0 : BeforeTime t.val incl 0) :
    pc ≠ .returned := by
  rintro rfl
  obtain ⟨s1, hs1⟩ := hr.started
  have hst := hr.timeStands hC hM hs1 ht
  have hu := interval_zero hs1 hst
  have hat := (hr.absTimes hE hs1).2.2 (fun e => by simp)
  have htime := hat.time
  simp only [PC.suspended, Bool.false_eq_true, if_false, Rat.add_zero, hu, Rat.mul_zero] at htime
  have hret := (C51_until_partial hr hE hesu hseq hd).1
  apply hret
  rw [htime]
  rcases (start_time hs1).2 with e | e | ⟨q', hq', e⟩
  · rw [e]; exact hc
  · rw [e]; exact h0
  · rw [e, hst.2 q' (.inr ⟨by rw [(Sys.start_ok hs1).mode, hm], hq'⟩)]; exact h0

/-- C114: in standard mode two nodes that execute at the same absolute time are in the same
consideration set: nodes of different consideration sets never do. -/
theorem C114_apart (hr : Reach E a s0 true h s pc) (hE : Keeps E fun s => s.clock a.id)
    (hQ : Keeps E fun s => s.queue) (hC : Keeps E fun s => s.conds)
    (hM : Keeps E fun s => s.mode) (hD : Keeps E fun s => s.defaultUnit)
    (hm : s0.mode = .standard) (hd : 0 < s0.defaultUnit)
    (hrep : ∀ q, RepeatUsed s a q → q.val ≠ 0) {n m : α} {t : Rat}
    (hn : t ∈ execTimes a.id n h) (hm' : t ∈ execTimes a.id m h) :
    ∃ i, At s0.queue i n ∧ At s0.queue i m := by
  have hmode : s.mode = .standard := by
    rw [← hm]; exact hr.keep (fun s => s.mode) hM (fun s s' f => f.mode) (fun s h => h.mode)
  have ht : TimePasses s a := by
    refine ⟨?_, ?_⟩
    · rw [hr.keep (fun s => s.defaultUnit) hD (fun s s' f => f.defaultUnit) (fun s h => h.defaultUnit)]
      exact hd
    · rintro ⟨q, hq⟩
      refine ⟨q, hq, ?_⟩
      rcases hq with hq | ⟨e, _⟩
      · exact hrep q hq
      · rw [hmode] at e; cases e
  have key : ∀ {n}, t ∈ execTimes a.id n h → ∃ (k : Nat) (y : Nat × List α × Rat),
      (timedSets a.id h)[k]? = some y ∧ n ∈ y.2.1 ∧ y.2.2 = t := by
    intro n hn
    unfold execTimes at hn
    obtain ⟨y, hy, hx⟩ := List.mem_filterMap.mp hn
    obtain ⟨k, hk⟩ := List.getElem?_of_mem hy
    split at hx
    · rename_i hin; cases hx; exact ⟨k, y, hk, hin, rfl⟩
    · cases hx
  obtain ⟨i, y, hy, hny, hyt⟩ := key hn
  obtain ⟨j, z, hz, hmz, hzt⟩ := key hm'
  have hij : i = j := by
    rcases Nat.lt_trichotomy i j with hl | he | hl
    · have := C115_later_partial hr hE hC hM hD ht hl hy hz
      rw [hyt, hzt] at this; exact absurd this Rat.lt_irrefl
    · exact he
    · have := C115_later_partial hr hE hC hM hD ht hl hz hy
      rw [hyt, hzt] at this; exact absurd this Rat.lt_irrefl
  subst hij
  rw [hy] at hz; cases hz
  have hmem := List.mem_of_getElem? hy
  exact ⟨y.1, hr.timedLayer hQ y hmem n hny, hr.timedLayer hQ y hmem m hmz⟩

/-- C114: in standard mode with several consideration sets, a node with
`TimeInterval(start=b)` executes whenever its consideration set is considered at time `b` or
later, and never before. -/
theorem C114_start (hr : Reach E a s0 true h s pc) (hE : Keeps E fun s => s.clock a.id)
    (hQ : Keeps E fun s => s.queue) (hM : Keeps E fun s => s.mode) (hC : Keeps E fun s => s.conds)
    (hO : Keeps E fun s => s.store.owner) (hp : ∀ e, pc ≠ .raised e)
    {n : α} {o : OId} {b : Qty} {i : Nat} {ei : Bool}
    (hn : Dict.get? s.conds n = some (.leaf o (.timeInterval none (some b) none true ei)))
    (ho : s.store.owner o = some n) (hi : At s0.queue i n) (hu : ∀ j, At s0.queue j n → j = i)
    (hm : s0.mode = .standard) (hl : s0.queue.length ≠ 1) :
    ∀ y ∈ timedSets a.id h, n ∈ y.2.1 ↔ y.1 = i ∧ b.val ≤ y.2.2 := by
  intro y hy
  rw [C60_when hr hE hQ hM hC hO hp hn ho (by simp) hi hu (.inr ⟨hm, hl⟩) y hy]
  simp [OnGrid, Within]

/-- C114: in exact-time mode two nodes with `TimeInterval(start=b)` execute in the same sets,
and if the clock starts at a multiple of the interval and the run lasts until `b`, one of
these is at `b` exactly. -/
theorem C114_together (hr : Reach E a s0 true h s pc) (hE : Keeps E fun s => s.clock a.id)
    (hQ : Keeps E fun s => s.queue) (hM : Keeps E fun s => s.mode) (hC : Keeps E fun s => s.conds)
    {n m : α} {o o' : OId} {b : Qty} {ei ei' : Bool} {l : List α}
    (hn : Dict.get? s.conds n = some (.leaf o (.timeInterval none (some b) none true ei)))
    (hm : Dict.get? s.conds m = some (.leaf o' (.timeInterval none (some b) none true ei')))
    (hx : s0.mode = .exactTime) (hq : s0.queue = [l]) (hnl : n ∈ l) (hml : m ∈ l) :
    (∀ y ∈ timedSets a.id h, n ∈ y.2.1 ↔ m ∈ y.2.1) ∧
    ((∀ e, pc ≠ .raised e) →
      Multiple (s0.clock a.id).time.absolute (s.clock a.id).time.absolute_interval →
      (s0.clock a.id).time.absolute ≤ b.val →
      ∀ y ∈ timedSets a.id h, b.val ≤ y.2.2 →
        ∃ y' ∈ timedSets a.id h, y'.2.2 = b.val ∧ n ∈ y'.2.1 ∧ m ∈ y'.2.1) := by
  have hat : ∀ {x}, x ∈ l → At s0.queue 0 x ∧ ∀ j, At s0.queue j x → j = 0 := by
    intro x hx
    rw [hq]
    refine ⟨⟨l, rfl, hx⟩, ?_⟩
    rintro (_ | j) ⟨k, hk, _⟩
    · rfl
    · simp at hk
  have h1 := C60_when_exact hr hQ hM hC hn (by simp) (hat hnl).1 (hat hnl).2 (.inl hx)
  have h2 := C60_when_exact hr hQ hM hC hm (by simp) (hat hml).1 (hat hml).2 (.inl hx)
  have w : ∀ ei t, Within (some b) none true ei t ↔ b.val ≤ t := by
    intro ei t; simp [Within]
  refine ⟨fun y hy => by rw [h1 y hy, h2 y hy, w, w], fun hp hs h0 y hy hl => ?_⟩
  have hu : TimeUsed s a b :=
    ⟨_, .inl ⟨n, Dict.mem_of_get? hn⟩, .start⟩
  obtain ⟨y', hy', e⟩ := C50_times hr hE hC hp hx hs hu h0 hy hl
  have hz : y'.1 = 0 := by
    have := hr.layerPos hQ y' hy'
    rw [hq] at this; simp at this; omega
  refine ⟨y', hy', e, ?_, ?_⟩
  · rw [h1 y' hy', w, e]; exact ⟨hz, by simp, Rat.le_refl⟩
  · rw [h2 y' hy', w, e]; exact ⟨hz, by simp, Rat.le_refl⟩

/-- The example of the documentation: `0 -> 1`, both with `TimeInterval(start=10)`. -/
def bothAtTen (m : Mode) : Sys Nat Nat Unit :=
  (((Sys.new [(1, [0])] m none 1 demoWorld).alloc 2).addBasic 0
    (.leaf 0 (.timeInterval none (some ⟨10, 0⟩) none true true))).addBasic 1
    (.leaf 1 (.timeInterval none (some ⟨10, 0⟩) none true true))

/-- In standard mode node 0 starts at 10 and node 1 at its next consideration, in exact-time
mode both start at 10. -/
example : timedSets none (runAfter (bothAtTen .standard) untilTwelve 100).1 = [(0, [0], 10), (1, [1], 11)] ∧
    timedSets none (runAfter (bothAtTen .exactTime) untilTwelve 100).1 = [(0, [0, 1], 10)] := by
  decide +kernel

theorem bothAtTen_starts : ∀ m, ((bothAtTen m).start untilTwelve).2 = .ok true
  | .standard => by decide +kernel
  | .exactTime => by decide +kernel

theorem bothAtTen_conds (m : Mode) (k : Nat) :
    (runAfter (bothAtTen m) untilTwelve k).2.1.conds =
      [(0, .leaf 0 (.timeInterval none (some ⟨10, 0⟩) none true true)),
       (1, .leaf 1 (.timeInterval none (some ⟨10, 0⟩) none true true))] := by
  obtain ⟨s1, hs1⟩ := (run_reach (bothAtTen_starts m) NoStep k).started
  rw [(run_reach (bothAtTen_starts m) NoStep k).keepConds (noStep_keeps _) hs1]
  have : s1 = ((bothAtTen m).start untilTwelve).1 := by rw [hs1]
  rw [this]
  cases m <;> rfl

theorem bothAtTen_noRepeat (m : Mode) (k : Nat) (q : Qty) :
    ¬ RepeatUsed (runAfter (bothAtTen m) untilTwelve k).2.1 untilTwelve q := by
  rintro ⟨c, hc, hq⟩
  unfold InForce at hc
  rw [bothAtTen_conds] at hc
  rcases hc with ⟨n, hn⟩ | rfl | rfl | hc
  · simp only [List.mem_cons, List.not_mem_nil, or_false, Prod.mk.injEq] at hn
    rcases hn with ⟨_, rfl⟩ | ⟨_, rfl⟩ <;> cases hq
  · cases hq
  · cases hq
  · cases hc

example (k : Nat) (t : Rat) := C114_apart (n := 0) (m := 1) (t := t)
  (run_reach (bothAtTen_starts .standard) NoStep k) (noStep_keeps _) (noStep_keeps _)
  (noStep_keeps _) (noStep_keeps _) (noStep_keeps _) rfl (by decide +kernel)
  (fun q hq => absurd hq (bothAtTen_noRepeat _ k q))

/-- The two nodes of the documentation's example never execute at the same time. -/
example (k : Nat) (t : Rat)
    (h0 : t ∈ execTimes none 0 (runAfter (bothAtTen .standard) untilTwelve k).1) :
    t ∉ execTimes none 1 (runAfter (bothAtTen .standard) untilTwelve k).1 := by
  intro h1
  obtain ⟨i, ⟨l, hl, x0⟩, ⟨l', hl', x1⟩⟩ := C114_apart (n := 0) (m := 1) (t := t)
    (run_reach (bothAtTen_starts .standard) NoStep k) (noStep_keeps _) (noStep_keeps _)
    (noStep_keeps _) (noStep_keeps _) (noStep_keeps _) rfl (by decide +kernel)
    (fun q hq => absurd hq (bothAtTen_noRepeat _ k q)) h0 h1
  have hq : (bothAtTen .standard).queue = [[0], [1]] := by decide +kernel
  rw [hq] at hl hl'
  rw [hl] at hl'; cases hl'
  match i with
  | 0 => cases hl; simp at x1
  | 1 => cases hl; simp at x0
  | i + 2 => simp at hl

example (k : Nat) := C114_together (n := 0) (m := 1) (l := [0, 1])
  (run_reach (bothAtTen_starts .exactTime) NoStep k) (noStep_keeps _) (noStep_keeps _)
  (noStep_keeps _) (noStep_keeps _)
  (by rw [bothAtTen_conds]; rfl) (by rw [bothAtTen_conds]; rfl) rfl (by decide +kernel)
  (by simp) (by simp)

/-- Node 1 executes whenever the second consideration set is considered at 10 or later. -/
example (k : Nat) (hp : ∀ e, (runAfter (bothAtTen .standard) untilTwelve k).2.2 ≠ .raised e) :=
  C114_start (n := 1) (o := 1) (b := ⟨10, 0⟩) (i := 1) (ei := true)
    (run_reach (bothAtTen_starts .standard) NoStep k) (noStep_keeps _) (noStep_keeps _)
    (noStep_keeps _) (noStep_keeps _) (noStep_keeps _) hp (by rw [bothAtTen_conds]; rfl)
    (by
      obtain ⟨s1, hs1, _, ho1, _⟩ := (run_reach (bothAtTen_starts .standard) NoStep k).conds_start
        (noStep_keeps _) (noStep_keeps _) (fun _ _ h => h.elim)
      obtain ⟨x1, _⟩ := (Sys.start_ok hs1).conds_spec
      rw [ho1, x1.owner 1 (by decide)]; rfl)
    ⟨[1], by decide +kernel, by simp⟩
    (by
      rintro j ⟨l, hl, h1⟩
      have hq : (bothAtTen .standard).queue = [[0], [1]] := by decide +kernel
      rw [hq] at hl
      match j with
      | 0 => cases hl; simp at h1
      | 1 => rfl
      | j + 2 => simp at hl)
    rfl (by decide +kernel)

/-- A run until after time 5: `TimeTermination(5, inclusive=False)`. -/
def pastFive : RunArgs Nat Nat Unit :=
  { id := none, esu := .leaf 10 (.timeTermination ⟨5, 0⟩ false), seq := .leaf 11 .never }

/-- Both nodes of `0 -> 1` have `TimeInterval(start=0)`, in exact-time mode. -/
def fromZero : Sys Nat Nat Unit :=
  (((Sys.new [(1, [0])] .exactTime none 1 demoWorld).alloc 2).addBasic 0
    (.leaf 0 (.timeInterval none (some ⟨0, 0⟩) none true true))).addBasic 1
    (.leaf 1 (.timeInterval none (some ⟨0, 0⟩) none true true))

theorem fromZero_starts : (fromZero.start pastFive).2 = .ok true := by decide +kernel

theorem fromZero_conds (k : Nat) : (runAfter fromZero pastFive k).2.1.conds =
    [(0, .leaf 0 (.timeInterval none (some ⟨0, 0⟩) none true true)),
     (1, .leaf 1 (.timeInterval none (some ⟨0, 0⟩) none true true))] := by
  obtain ⟨s1, hs1⟩ := (run_reach fromZero_starts NoStep k).started
  rw [(run_reach fromZero_starts NoStep k).keepConds (noStep_keeps _) hs1]
  have : s1 = (fromZero.start pastFive).1 := by rw [hs1]
  rw [this]
  rfl

theorem fromZero_stands (k : Nat) : TimeStands (runAfter fromZero pastFive k).2.1 pastFive := by
  have hm : (runAfter fromZero pastFive k).2.1.mode = .exactTime :=
    (run_reach fromZero_starts NoStep k).keep (fun s => s.mode) (noStep_keeps _)
      (fun s s' f => f.mode) (fun s h => h.mode)
  refine ⟨⟨⟨0, 0⟩, .inr ⟨hm, _, .inl ⟨0, by rw [fromZero_conds]; exact List.mem_cons_self⟩, .start⟩⟩, ?_⟩
  have hc : ∀ c, InForce (runAfter fromZero pastFive k).2.1 pastFive c →
      c = .leaf 0 (.timeInterval none (some ⟨0, 0⟩) none true true) ∨
      c = .leaf 1 (.timeInterval none (some ⟨0, 0⟩) none true true) ∨
      c = pastFive.seq ∨ c = pastFive.esu := by
    rintro c hc
    unfold InForce at hc
    rw [fromZero_conds] at hc
    rcases hc with ⟨n, hn⟩ | rfl | rfl | hc
    · simp only [List.mem_cons, List.not_mem_nil, or_false, Prod.mk.injEq] at hn
      rcases hn with ⟨_, rfl⟩ | ⟨_, rfl⟩
      · exact .inl rfl
      · exact .inr (.inl rfl)
    · exact .inr (.inr (.inl rfl))
    · exact .inr (.inr (.inr rfl))
    · cases hc
  rintro q (⟨c, h1, h2⟩ | ⟨_, c, h1, h2⟩)
  · rcases hc c h1 with rfl | rfl | rfl | rfl <;> cases h2
  · rcases hc c h1 with rfl | rfl | rfl | rfl
    · cases h2; decide +kernel
    · cases h2; decide +kernel
    · cases h2
    · cases h2

theorem fromZero_healthy : Healthy fromZero := by
  have h := C90_new (κ := Nat) (W := Unit) [(1, [0])] (by decide)
    (by
      rcases toposort_spec ([(1, [0])] : Graph Nat) (by decide) with ⟨_, _, _, _, _, h⟩ | ⟨h, _⟩
      · exact h
      · exact absurd h (by decide)) .exactTime none 1 demoWorld
  exact ⟨h.placed, h.known, h.senders, h.acyclic, h.synced, h.clock⟩

theorem fromZero_sane : SaneConds (settingOf fromZero none fun _ => True) fromZero := by
  intro n c hc
  have hcs : fromZero.conds = [(0, .leaf 0 (.timeInterval none (some ⟨0, 0⟩) none true true)),
     (1, .leaf 1 (.timeInterval none (some ⟨0, 0⟩) none true true))] := rfl
  rw [hcs] at hc
  have := Dict.mem_of_get? hc
  simp only [List.mem_cons, List.not_mem_nil, or_false, Prod.mk.injEq] at this
  rcases this with ⟨_, rfl⟩ | ⟨_, rfl⟩ <;> intro r hr <;> cases hr

/-- C115 is false: this run, which should end after time 5, stays at time 0 for ever,
however many steps it makes. -/
theorem C115_fromZero (k : Nat) :
    Reach NoStep pastFive fromZero true (runAfter fromZero pastFive k).1
      (runAfter fromZero pastFive k).2.1 (runAfter fromZero pastFive k).2.2 ∧
    (runAfter fromZero pastFive k).2.2 ≠ .returned ∧
    (∀ e, (runAfter fromZero pastFive k).2.2 ≠ .raised e) ∧
    ∀ y ∈ timedSets none (runAfter fromZero pastFive k).1, y.2.2 = 0 := by
  have hr := run_reach fromZero_starts NoStep k
  refine ⟨hr, C115_never_ends hr (noStep_keeps _) (noStep_keeps _) (noStep_keeps _)
    (fromZero_stands k) rfl (by decide +kernel) rfl rfl ?_ ?_,
    C90_never_raises (a := pastFive) (P := fun _ => True) fromZero_healthy trivial fromZero_sane trivial trivial
      (fun _ => by decide +kernel) (run_reach fromZero_starts _ k), ?_⟩
  · show _ ≤ _; decide +kernel
  · show _ ≤ _; decide +kernel
  · intro y hy
    obtain ⟨s1, hs1⟩ := hr.started
    obtain ⟨i, hi⟩ := List.getElem?_of_mem hy
    have := (hr.absTimes (noStep_keeps _) hs1).1 i y hi
    rw [this, interval_zero hs1 (hr.timeStands (noStep_keeps _) (noStep_keeps _) hs1 (fromZero_stands k)),
      Rat.mul_zero]
    have : s1 = (fromZero.start pastFive).1 := by rw [hs1]
    rw [this]; decide +kernel

/-- It goes on yielding both nodes. -/
example : timedSets none (runAfter fromZero pastFive 60).1 = List.replicate 6 (0, [0, 1], 0) := by
  decide +kernel

theorem ticking_passes (k : Nat) : TimePasses (runAfter ticking untilTwelve k).2.1 untilTwelve := by
  have hd : (runAfter ticking untilTwelve k).2.1.defaultUnit = ticking.defaultUnit :=
    (ticking_reach NoStep k).keep (fun s => s.defaultUnit) (noStep_keeps _)
      (fun s s' f => f.defaultUnit) (fun s h => h.defaultUnit)
  exact ⟨by rw [hd]; decide +kernel, fun _ => ⟨⟨3, 0⟩,
    .inl ⟨_, .inl ⟨1, Dict.mem_of_get? (tick_conds k).1⟩, .leaf⟩, by decide +kernel⟩⟩

example (k : Nat) := C115_later_partial (i := 3) (j := 7) (y := (1, [], 3/2)) (z := (1, [1], 7/2)) (ticking_reach NoStep k)
  (noStep_keeps _) (noStep_keeps _) (noStep_keeps _) (noStep_keeps _) (ticking_passes k) (by omega)
example := C115_reaches_partial (t := 7) (Prod.ext rfl ticking_start) (ticking_passes 0)

end GS.Props
