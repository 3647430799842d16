import Verif.AbsUnit
import Verif.Props.RunOrder
import Verif.Props.RunEnds
/-!
# Absolute time in runs and over the life of a scheduler: lemmas
-/

set_option linter.unusedSectionVars false

namespace GS
open Spec Props
variable {α κ W : Type _} [DecidableEq α] [DecidableEq κ]
variable {a : RunArgs α κ W} {abs : Bool} {s s' s0 s1 : Sys α κ W} {pc pc' : PC α}
  {ev : Option (Event α)} {E : Sys α κ W → Sys α κ W → Prop} {h : History α κ W}

/-! ## Time stamps -/

theorem Reach.stampList (hr : Reach E a s0 true h s pc) (hE : Keeps E fun s => s.clock a.id)
    (hT : Keeps E fun s => Dict.get? s.timestamps a.id)
    (h1 : s0.start a = (s1, .ok true)) {ts0} (h0 : Dict.get? s0.timestamps a.id = some ts0)
    (hp : ∀ e, pc ≠ .raised e) :
    ∃ l, Dict.get? s.timestamps a.id = some (ts0 ++ l) ∧
      l.map (fun t => t.absolute) = (timedSets a.id h).map (fun y => y.2.2) ∧
      ∀ t ∈ l, t.absolute_interval = (s1.clock a.id).time.absolute_interval := by
  refine hr.ind (P := fun h s pc => (∀ e, pc ≠ .raised e) →
    ∃ l, Dict.get? s.timestamps a.id = some (ts0 ++ l) ∧
      l.map (fun t => t.absolute) = (timedSets a.id h).map (fun y => y.2.2) ∧
      ∀ t ∈ l, t.absolute_interval = (s1.clock a.id).time.absolute_interval) ?_ ?_ ?_ hp
  · intro s hs _
    exact ⟨[], by rw [(Sys.start_ok hs).timestamps, List.append_nil]; exact h0, rfl, by simp⟩
  · intro h s s' pc pc' ev hr ih hst hp
    have hp0 : ∀ e, pc ≠ .raised e := by
      intro e he
      subst he
      cases hst with
      | raised => exact hp _ rfl
      | fails hf => cases hf
    obtain ⟨l, i1, i2, i3⟩ := ih hp0
    have quiet : (∀ i set, ev ≠ some (.layer i set true)) → s'.timestamps = s.timestamps →
        ∃ l, Dict.get? s'.timestamps a.id = some (ts0 ++ l) ∧
          l.map (fun t => t.absolute) = (timedSets a.id (ext h s ev s')).map (fun y => y.2.2) ∧
          ∀ t ∈ l, t.absolute_interval = (s1.clock a.id).time.absolute_interval := by
      intro hev hs
      refine ⟨l, by rw [hs]; exact i1, ?_, i3⟩
      rw [i2]
      cases ev with
      | none => rw [ext_none]
      | some x =>
        rw [ext_some, timed_snoc]
        cases x with
        | layer i set b =>
          cases b with
          | true => exact absurd rfl (hev i set)
          | false => simp [timedSet?]
        | _ => simp [timedSet?]
    cases hst with
    | yield _ _ ha => cases ha
    | emptyYield _ ha => cases ha
    | silent _ _ ha => cases ha
    | @yieldAbs c l1 ts ht hag ha hx hts =>
      rw [i1] at hts
      cases hts
      refine ⟨l ++ [(s.clock a.id).time], ?_, ?_, ?_⟩
      · show Dict.get? (Dict.set _ _ _) _ = _
        rw [Dict.get?_set_self, List.append_assoc]
      · rw [ext_some, timed_snoc, List.map_append, List.map_append, i2]; rfl
      · intro t ht
        rcases List.mem_append.mp ht with ht | ht
        · exact i3 t ht
        · simp at ht; subst ht
          exact ((hr.absTimes hE h1).2.2 (fun e => by simp)).interval
    | fails => exact absurd rfl (hp _)
    | _ => exact quiet (by simp) rfl
  · intro h s s' pc hr ih hs he hp
    obtain ⟨l, i1, i2, i3⟩ := ih hp
    exact ⟨l, (hT _ _ he).trans i1, i2, i3⟩

/-- One while a set is being chosen. -/
def choosing1 : PC α → Nat
  | .choosing _ => 1
  | _ => 0

/-- In absolute-time mode every set that is considered is yielded. -/
theorem Reach.consideredShown (hr : Reach E a s0 true h s pc) (hp : ∀ e, pc ≠ .raised e) (i : Option κ) :
    (setsConsidered h).length = (timedSets i h).length + choosing1 pc := by
  refine hr.ind (P := fun h s pc => (∀ e, pc ≠ .raised e) →
    (setsConsidered h).length = (timedSets i h).length + choosing1 pc)
    ?_ ?_ ?_ hp
  · intro s _ _; rfl
  · intro h s s' pc pc' ev _ ih hst hp
    cases hst with
    | yield _ _ ha => cases ha
    | emptyYield _ ha => cases ha
    | silent _ _ ha => cases ha
    | fails => exact absurd rfl (hp _)
    | raised => exact absurd rfl (hp _)
    | consider =>
      have := ih (fun e => by simp)
      rw [ext_some, setsConsidered_snoc, timed_snoc, List.length_append, this]; simp [timedSet?, choosing1]
    | yieldAbs =>
      have := ih (fun e => by simp)
      rw [ext_some, setsConsidered_snoc, timed_snoc]
      simp only [List.append_nil, List.length_append]
      rw [this]; simp [timedSet?, choosing1]
    | _ =>
      have := ih (fun e => by simp)
      first
      | (rw [ext_none, this]; done)
      | (rw [ext_none, this]; rfl)
      | (rw [ext_some, setsConsidered_snoc, timed_snoc]
         simp only [List.append_nil]
         rw [this]; simp [timedSet?, choosing1])
  · intro h s s' pc _ ih _ _ hp; exact ih hp

theorem timed_append (i : Option κ) (h k : History α κ W) : timedSets i (h ++ k) = timedSets i h ++ timedSets i k := by
  unfold timedSets; rw [List.filterMap_append]

/-! ## The interval in a run -/

theorem Spec.InForce.congr (hc : s'.conds = s.conds) {c : Cond α κ W} :
    InForce s' a c ↔ InForce s a c := by unfold InForce; rw [hc]

theorem repeatUsed_congr (hc : s'.conds = s.conds) : RepeatUsed s' a = RepeatUsed s a := by
  funext q; unfold RepeatUsed InForce; rw [hc]

theorem timeUsed_congr (hc : s'.conds = s.conds) : TimeUsed s' a = TimeUsed s a := by
  funext q; unfold TimeUsed InForce; rw [hc]

theorem determines_congr (hc : s'.conds = s.conds) (hm : s'.mode = s.mode) :
    Determines s' a = Determines s a := by
  funext q; unfold Determines; rw [repeatUsed_congr hc, timeUsed_congr hc, hm]

theorem start_interval (h : s0.start a = (s, .ok true)) :
    ((¬ ∃ q, Determines s a q) ∧ (s.clock a.id).time.absolute_interval = s0.defaultUnit) ∨
    ((∃ q, Determines s a q) ∧ parts s ≠ 0 ∧
      IsGcd (Determines s a) ((parts s : Rat) * (s.clock a.id).time.absolute_interval)) := by
  rcases Sys.start_abs h with ⟨h, _⟩ | ⟨_, _, u, hu, hc⟩
  · cases h
  · have := absoluteUnit_spec hu
    rw [(Sys.start_ok h).defaultUnit] at this
    rw [hc]; exact this

theorem parts_nonneg {n : Nat} {u : Rat} (hn : n ≠ 0) (h : 0 ≤ (n : Rat) * u) : 0 ≤ u := by
  have hp : (0 : Rat) < n := Rat.natCast_pos.mpr (Nat.pos_of_ne_zero hn)
  rcases Rat.le_total (a := 0) (b := u) with hu | hu
  · exact hu
  · have h1 := Rat.mul_le_mul_of_nonneg_left hu (Rat.le_of_lt hp)
    rw [Rat.mul_zero] at h1
    have : (n : Rat) * u = 0 := Rat.le_antisymm h1 h
    rcases Rat.mul_eq_zero.mp this with h | h
    · rw [h] at hp; exact absurd hp (by decide)
    · rw [h]; exact Rat.le_refl

theorem absoluteUnit_nonneg {u : Rat} (hd : 0 ≤ s.defaultUnit)
    (h : s.absoluteUnit (s.absoluteConds a) = .ok u) : 0 ≤ u := by
  rcases absoluteUnit_spec h with ⟨_, h⟩ | ⟨_, hp, hg⟩
  · rw [h]; exact hd
  · exact parts_nonneg hp hg.1

/-! ## Where absolute time starts -/

theorem le_max_left' (x y : Rat) : x ≤ max x y := by grind
theorem le_advanceTo (cur : Rat) (cs : List (Cond α κ W)) : cur ≤ Sys.advanceTo cur cs := by
  cases cs with
  | nil => exact Rat.le_refl
  | cons c cs => exact le_max_left' _ _

theorem foldl_min_le {β : Type _} (f : β → Rat) : ∀ (l : List β) (m : Rat),
    l.foldl (fun m x => min m (f x)) m ≤ m ∧ ∀ x ∈ l, l.foldl (fun m x => min m (f x)) m ≤ f x
  | [], m => ⟨Rat.le_refl, by simp⟩
  | y :: l, m => by
    obtain ⟨h1, h2⟩ := foldl_min_le f l (min m (f y))
    simp only [List.foldl_cons]
    refine ⟨by grind, fun x hx => ?_⟩
    rcases List.mem_cons.mp hx with rfl | hx
    · grind
    · exact h2 x hx

theorem foldl_min_mem {β : Type _} (f : β → Rat) : ∀ (l : List β) (m : Rat),
    l.foldl (fun m x => min m (f x)) m = m ∨ ∃ x ∈ l, l.foldl (fun m x => min m (f x)) m = f x
  | [], m => .inl rfl
  | y :: l, m => by
    simp only [List.foldl_cons]
    rcases foldl_min_mem f l (min m (f y)) with h | ⟨x, hx, h⟩
    · rw [h]
      have : min m (f y) = m ∨ min m (f y) = f y := by grind
      rcases this with e | e
      · exact .inl e
      · exact .inr ⟨y, by simp, e⟩
    · exact .inr ⟨x, by simp [hx], h⟩

theorem firstPoint_le {c : Cond α κ W} {q : Qty} (h : q ∈ c.fixedPoints) :
    Sys.firstPoint c ≤ q.val := by
  unfold Sys.firstPoint
  split
  · rename_i e; rw [e] at h; cases h
  · rename_i p ps e
    rw [e] at h
    obtain ⟨h1, h2⟩ := foldl_min_le Qty.val ps p.val
    rcases List.mem_cons.mp h with rfl | h
    · exact h1
    · exact h2 q h

theorem firstPoint_mem (c : Cond α κ W) :
    (c.fixedPoints = [] ∧ Sys.firstPoint c = 0) ∨ ∃ q ∈ c.fixedPoints, Sys.firstPoint c = q.val := by
  unfold Sys.firstPoint
  split
  · rename_i e; exact .inl ⟨e, rfl⟩
  · rename_i p ps e
    right
    rcases foldl_min_mem Qty.val ps p.val with h | ⟨x, hx, h⟩
    · exact ⟨p, by rw [e]; simp, h⟩
    · exact ⟨x, by rw [e]; simp [hx], h⟩

theorem advanceTo_le {cur : Rat} {cs : List (Cond α κ W)} {c : Cond α κ W} (h : c ∈ cs) :
    Sys.advanceTo cur cs ≤ max cur (Sys.firstPoint c) := by
  cases cs with
  | nil => cases h
  | cons d cs =>
    unfold Sys.advanceTo
    obtain ⟨h1, h2⟩ := foldl_min_le Sys.firstPoint cs (Sys.firstPoint d)
    have : cs.foldl (fun m x => min m (Sys.firstPoint x)) (Sys.firstPoint d) ≤ Sys.firstPoint c := by
      rcases List.mem_cons.mp h with rfl | h
      · exact h1
      · exact h2 c h
    grind

theorem advanceTo_mem (cur : Rat) (cs : List (Cond α κ W)) :
    Sys.advanceTo cur cs = cur ∨ ∃ c ∈ cs, Sys.advanceTo cur cs = Sys.firstPoint c := by
  cases cs with
  | nil => exact .inl rfl
  | cons d cs =>
    unfold Sys.advanceTo
    have : ∀ x y : Rat, max x y = x ∨ max x y = y := by intro x y; grind
    rcases this cur (cs.foldl (fun m x => min m (Sys.firstPoint x)) (Sys.firstPoint d)) with e | e
    · exact .inl e
    · right
      rcases foldl_min_mem Sys.firstPoint cs (Sys.firstPoint d) with h | ⟨x, hx, h⟩
      · exact ⟨d, by simp, e.trans h⟩
      · exact ⟨x, by simp [hx], e.trans h⟩

/-- The time at the beginning of the loop. -/
theorem start_time (h : s0.start a = (s, .ok true)) :
    (s0.clock a.id).time.absolute ≤ (s.clock a.id).time.absolute ∧
    ((s.clock a.id).time.absolute = (s0.clock a.id).time.absolute ∨
      (s.clock a.id).time.absolute = 0 ∨ ∃ q, TimeUsed s a q ∧ (s.clock a.id).time.absolute = q.val) := by
  rcases Sys.start_abs h with ⟨h, _⟩ | ⟨_, _, u, hu, hc⟩
  · cases h
  · have e : (s.clock a.id).time.absolute =
        Sys.advanceTo (s0.clock a.id).time.absolute (s.absoluteConds a) := by rw [hc]
    rw [e]
    refine ⟨le_advanceTo _ _, ?_⟩
    rcases advanceTo_mem (s0.clock a.id).time.absolute (s.absoluteConds a) with h | ⟨c, hm, h⟩
    · exact .inl h
    · right
      rcases firstPoint_mem c with ⟨_, h0⟩ | ⟨q, hq, h0⟩
      · exact .inl (h.trans h0)
      · exact .inr ⟨q, (timeUsed_iff s a q).mpr ⟨c, hm, hq⟩, h.trans h0⟩

/-! ## Absolute time never decreases -/

/-- Absolute time under `i` in `s'` is not before that in `s`, and the interval is not
negative. -/
def Later (i : Option κ) (s s' : Sys α κ W) : Prop :=
  (s.clock i).time.absolute ≤ (s'.clock i).time.absolute ∧ 0 ≤ (s'.clock i).time.absolute_interval ∧
    s'.defaultUnit = s.defaultUnit

theorem Later.ofClocks {i : Option κ} (h : 0 ≤ (s.clock i).time.absolute_interval)
    (hc : s'.clock i = s.clock i) (hd : s'.defaultUnit = s.defaultUnit) : Later i s s' :=
  ⟨by rw [hc]; exact Rat.le_refl, by rw [hc]; exact h, hd⟩

theorem clock_setClock_other {i j : Option κ} {c : Clock} (h : i ≠ j) :
    (s.setClock j c).clock i = s.clock i := by
  unfold Sys.setClock View.clock; rw [Dict.get?_set_ne h]

theorem Later.start {i : Option κ} {r} (h : s.start a = (s', r)) (hu : 0 ≤ s.defaultUnit)
    (hi : 0 ≤ (s.clock i).time.absolute_interval) : Later i s s' := by
  unfold Sys.start at h
  rcases h1 : s.validateRunState with ⟨s1, e1⟩
  have hv : s1.clocks = s.clocks ∧ s1.defaultUnit = s.defaultUnit := by
    have : ∀ ns (s s' : Sys α κ W) r, Sys.validateConditions ns s = (s', r) →
        s'.clocks = s.clocks ∧ s'.defaultUnit = s.defaultUnit := by
      intro ns s s' r h
      obtain ⟨cs, st, e⟩ := Sys.validateConditions_frame ns s s' r h
      rw [e]; exact ⟨rfl, rfl⟩
    unfold Sys.validateRunState at h1
    split at h1
    · cases h1; exact ⟨rfl, rfl⟩
    · exact this _ _ _ _ h1
  have l1 : Later i s s1 := .ofClocks hi (by unfold View.clock; rw [hv.1]) hv.2
  cases e1 with
  | some e =>
    simp only [h1] at h
    obtain ⟨rfl, _⟩ := Prod.mk.inj h
    exact l1
  | none =>
    simp only [h1] at h
    obtain ⟨d, ed, hd⟩ := Sys.getClock_frame s1 a.id
    have hgi : (s1.getClock a.id).clock i = s.clock i := by
      by_cases e : i = a.id
      · subst e; rw [Sys.getClock_clock]; unfold View.clock; rw [hv.1]
      · unfold Sys.getClock
        split
        · unfold View.clock; rw [hv.1]
        · unfold View.clock; rw [Dict.get?_set_ne e, hv.1]
    have hgu : (s1.getClock a.id).defaultUnit = s.defaultUnit := by rw [ed]; exact hv.2
    rcases h2 : (s1.getClock a.id).setupAbsolute a with ⟨s2, e | abs2⟩
    · simp only [h2] at h
      obtain ⟨rfl, _⟩ := Prod.mk.inj h
      unfold Sys.setupAbsolute at h2
      dsimp only at h2
      split at h2
      · cases h2
      · split at h2
        · cases h2; exact .ofClocks hi hgi hgu
        · cases h2
    · simp only [h2] at h
      have l2 : Later i s s2 ∧ ∃ c, Dict.get? s2.clocks a.id = some c := by
        rcases Sys.setupAbsolute_cases h2 with ⟨_, _, e⟩ | ⟨_, _, u, hau, e⟩
        · rw [e]
          refine ⟨⟨?_, ?_, hgu⟩, _, Dict.get?_set_self _ _ _⟩
          · by_cases hx : i = a.id
            · subst hx; rw [Sys.clock_setClock, hgi]; exact Rat.le_refl
            · rw [clock_setClock_other hx, hgi]; exact Rat.le_refl
          · by_cases hx : i = a.id
            · subst hx; rw [Sys.clock_setClock, hgi]; exact hi
            · rw [clock_setClock_other hx, hgi]; exact hi
        · rw [e]
          refine ⟨⟨?_, ?_, hgu⟩, _, Dict.get?_set_self _ _ _⟩
          · by_cases hx : i = a.id
            · subst hx; rw [Sys.clock_setClock, hgi]; exact le_advanceTo _ _
            · rw [clock_setClock_other hx, hgi]; exact Rat.le_refl
          · by_cases hx : i = a.id
            · subst hx; rw [Sys.clock_setClock]; exact absoluteUnit_nonneg (by rw [hgu]; exact hu) hau
            · rw [clock_setClock_other hx, hgi]; exact hi
      obtain ⟨l2, c, hc⟩ := l2
      rcases h3 : s2.initCounts a.id a.base with ⟨s3, e3⟩
      have hk := Sys.clocks_initCounts h3 hc
      have hu3 : s3.defaultUnit = s2.defaultUnit := by
        have e1 : ∀ {s s' : Sys α κ W}, s.initTotal a.id a.base = .ok s' → s'.defaultUnit = s.defaultUnit := by
          intro s s' h
          unfold Sys.initTotal at h
          repeat' split at h
          all_goals first | cases h; rfl | cases h
        have e2 : ∀ {s s' : Sys α κ W}, s.initUseable a.id a.base = .ok s' → s'.defaultUnit = s.defaultUnit := by
          intro s s' h
          unfold Sys.initUseable at h
          repeat' split at h
          all_goals first | cases h; rfl | cases h
        have e3 : ∀ {s s' : Sys α κ W}, s.initList a.id a.base = .ok s' → s'.defaultUnit = s.defaultUnit := by
          intro s s' h
          unfold Sys.initList at h
          repeat' split at h
          all_goals first | cases h; rfl | cases h
        have e4 : ∀ {s s' : Sys α κ W}, s.initClock a.id a.base = .ok s' → s'.defaultUnit = s.defaultUnit := by
          intro s s' h
          unfold Sys.initClock at h
          repeat' split at h
          all_goals first | cases h; rfl | cases h
        unfold Sys.initCounts at h3
        repeat' split at h3
        all_goals cases h3
        · rfl
        · exact e1 ‹_›
        · rw [e2 ‹_›, e1 ‹_›]
        · rw [e3 ‹_›, e2 ‹_›, e1 ‹_›]
        · rw [e4 ‹_›, e3 ‹_›, e2 ‹_›, e1 ‹_›]
      have l3 : ∀ {s4 : Sys α κ W}, s4.clocks = s3.clocks → s4.defaultUnit = s3.defaultUnit → Later i s s4 := by
        intro s4 hs hd4
        have : s4.clock i = s2.clock i := by unfold View.clock; rw [hs, hk]
        exact ⟨by rw [this]; exact l2.1, by rw [this]; exact l2.2.1, by rw [hd4, hu3]; exact l2.2.2⟩
      cases e3 with
      | some e =>
        simp only [h3] at h
        obtain ⟨rfl, _⟩ := Prod.mk.inj h
        exact l3 rfl rfl
      | none =>
        simp only [h3] at h
        unfold Sys.resetTotal at h
        split at h
        · cases h; exact l3 rfl rfl
        · rename_i s4 h4
          split at h4
          · cases h4
          · cases h4; cases h; exact l3 rfl rfl

theorem Later.step {i : Option κ} (hst : StepR a abs s pc s' pc' ev)
    (hi : 0 ≤ (s.clock i).time.absolute_interval) : Later i s s' := by
  by_cases e : i = a.id
  · subst e
    obtain ⟨h1, h2⟩ := hst.absTime
    refine ⟨?_, by rw [h1]; exact hi, hst.frame.defaultUnit⟩
    rcases h2 with h2 | h2
    · rw [h2]; exact Rat.le_refl
    · rw [h2]; grind
  · refine .ofClocks hi ?_ hst.frame.defaultUnit
    unfold View.clock; rw [hst.frame.clocks i e]

end GS
