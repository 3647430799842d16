import Verif.Spec.Tempo
import Verif.EquivStart
import Verif.Touch
import Verif.RenameRun
/-!
# Lemmas: the same at another speed
-/

set_option linter.unusedSectionVars false

namespace GS
open Spec
variable {α κ W : Type _} [DecidableEq α] [DecidableEq κ]
variable {k : Rat}

/-! ## Numbers -/

theorem tempo_le (hk : 0 < k) (x y : Rat) : k * x ≤ k * y ↔ x ≤ y := by
  constructor
  · intro h
    rcases (Rat.le_total : x ≤ y ∨ y ≤ x) with h1 | h1
    · exact h1
    · have h2 := Rat.mul_le_mul_of_nonneg_left h1 (Rat.le_of_lt hk)
      have h3 : k * x = k * y := Rat.le_antisymm h h2
      have h0 : k ≠ 0 := by grind
      have e : ∀ z : Rat, k⁻¹ * (k * z) = z := fun z => by
        rw [← Rat.mul_assoc, Rat.inv_mul_cancel k h0, Rat.one_mul]
      have : x = y := by rw [← e x, h3, e]
      exact this ▸ Rat.le_refl
  · exact fun h => Rat.mul_le_mul_of_nonneg_left h (Rat.le_of_lt hk)

theorem tempo_lt (hk : 0 < k) (x y : Rat) : k * x < k * y ↔ x < y := by
  rw [← Rat.not_le, ← Rat.not_le, tempo_le hk]

theorem tempo_zero (hk : 0 < k) (x : Rat) : k * x = 0 ↔ x = 0 := by
  constructor
  · intro h; grind
  · rintro rfl; exact Rat.mul_zero k

theorem tempo_div (hk : 0 < k) (x r : Rat) : k * x / (k * r) = x / r := by
  by_cases hr : r = 0
  · subst hr; simp [Rat.div_def]
  · have : k ≠ 0 := by grind
    grind

theorem tempo_mod (hk : 0 < k) (x r : Rat) : ratMod (k * x) (k * r) = k * ratMod x r := by
  unfold ratMod
  rw [tempo_div hk]
  grind

theorem tempo_min (hk : 0 < k) (x y : Rat) : min (k * x) (k * y) = k * min x y := by
  show (if k * x ≤ k * y then k * x else k * y) = k * (if x ≤ y then x else y)
  simp only [tempo_le hk]
  split <;> rfl

theorem tempo_max (hk : 0 < k) (x y : Rat) : max (k * x) (k * y) = k * max x y := by
  show (if k * x ≤ k * y then k * y else k * x) = k * (if x ≤ y then y else x)
  simp only [tempo_le hk]
  split <;> rfl

/-! ## Times and clocks -/

theorem Spec.TimeTempo.zero : TimeTempo k Time.zero Time.zero :=
  ⟨rfl, rfl, (Rat.mul_zero k).symm, fun h => by cases h⟩

theorem Spec.ClockTempo.new : ClockTempo k Clock.new Clock.new := ⟨rfl, TimeTempo.zero, .none⟩

theorem Spec.TimeTempo.incr {t t' : Time} (h : TimeTempo k t t') (ts : TimeScale) :
    TimeTempo k (t.incr ts) (t'.incr ts) := by
  obtain ⟨h1, h2, h3, h4⟩ := h
  have e : ((t'.set ts (t'.get ts + 1)).reset ts).at_ = ((t.set ts (t.get ts + 1)).reset ts).at_ := by
    unfold Time.reset Time.set Time.get
    simp only [h1]
  unfold Time.incr
  dsimp only
  have e2 : ((t'.set ts (t'.get ts + 1)).reset ts).absolute_enabled =
    ((t.set ts (t.get ts + 1)).reset ts).absolute_enabled := h2
  rw [e2]
  split
  · rename_i hc
    refine ⟨e, rfl, ?_, h4⟩
    have he : t.absolute_enabled = true := by
      simp only [Bool.and_eq_true] at hc; exact hc.1
    show t'.absolute + t'.absolute_interval = k * (t.absolute + t.absolute_interval)
    rw [h3, h4 he]; grind
  · exact ⟨e, h2, h3, h4⟩

/-- Corresponding results. -/
def ExceptRel {β : Type _} (R : β → β → Prop) : Except Err β → Except Err β → Prop
  | .ok s, .ok s' => R s s'
  | .error e, .error e' => e' = e
  | _, _ => False

theorem Spec.ClockTempo.incr {c c' : Clock} (h : ClockTempo k c c') (ts : TimeScale) :
    ExceptRel (ClockTempo k) (c.incr ts) (c'.incr ts) := by
  unfold Clock.incr
  rw [h.tree]
  cases c.tree.incr Clock.maxDepth ts with
  | error e => exact rfl
  | ok t => exact ⟨rfl, h.time.incr ts, .some h.time⟩

theorem Spec.ClockTempo.relative {c c' : Clock} (h : ClockTempo k c c') (q b : TimeScale) (i : Option Int) :
    c'.getTotalTimesRelative q b i = c.getTotalTimesRelative q b i := by
  unfold Clock.getTotalTimesRelative Clock.getTimeByTimeScale Time.get
  rw [h.tree, h.time.at_]

/-! ## Conditions -/

section
variable {v v' : View α κ W} (hv : ViewTempo k v v') (id : Option κ)

theorem Spec.ViewTempo.clock (hv : ViewTempo k v v') (id : Option κ) :
    ClockTempo k (v.clock id) (v'.clock id) := by
  unfold View.clock
  rcases hv.clocks.get id with ⟨h1, h2⟩ | ⟨c, c', h1, h2, h3⟩
  · rw [h1, h2]; exact .new
  · rw [h1, h2]; exact h3

theorem Spec.ViewTempo.exact (hv : ViewTempo k v v') : v'.inExactTimeMode = v.inExactTimeMode := by
  unfold View.inExactTimeMode; rw [hv.mode, hv.queue]

theorem Spec.ViewTempo.total (hv : ViewTempo k v v') (id ts n) : v'.total id ts n = v.total id ts n := by
  unfold View.total; rw [hv.countsTotal, hv.nodes]

theorem Spec.ViewTempo.useable (hv : ViewTempo k v v') (id a b) : v'.useable id a b = v.useable id a b := by
  unfold View.useable; rw [hv.countsUseable, hv.nodes]

theorem layerOffset_tempo (o : Option α) (i : Rat) (q : List (List α)) :
    layerOffset o (k * i) q = (layerOffset o i q).map (k * ·) := by
  unfold layerOffset
  have : ∀ (l : List (List α × Nat)) (z : Option Rat),
      l.foldl (fun off p => match o with
        | some o => if o ∈ p.1 then some (p.2 * (k * i)) else off
        | none => off) (z.map (k * ·)) =
      (l.foldl (fun off p => match o with
        | some o => if o ∈ p.1 then some (p.2 * i) else off
        | none => off) z).map (k * ·) := by
    intro l
    induction l with
    | nil => intro z; rfl
    | cons p l ih =>
      intro z
      simp only [List.foldl_cons]
      rw [← ih]
      congr 1
      cases o with
      | none => rfl
      | some o =>
        dsimp only
        split
        · simp only [Option.map_some]; congr 1; grind
        · rfl
  exact this _ none

theorem repeatOk_tempo (hk : 0 < k) {r r' : Option Qty} (h : Option.Rel (QtyTempo k) r r') (t : Rat)
    {off off' : Option Rat} (ho : r.isSome = true → off' = off.map (k * ·)) :
    repeatOk (k * t) off' r' = repeatOk t off r := by
  cases h with
  | none => rfl
  | some h =>
    rw [ho rfl]
    unfold repeatOk
    cases off with
    | none => rfl
    | some x =>
      dsimp only [Option.map_some]
      rw [h]
      simp only [tempo_zero hk]
      split
      · rfl
      · have e : k * t - k * x = k * (t - x) := by grind
        rw [e, tempo_mod hk]
        simp only [tempo_zero hk]

theorem timeInterval_tempo (hk : 0 < k) (hv : ViewTempo k v v') (id : Option κ) (o : Option α)
    {r r' s s' e e' : Option Qty} (si ei : Bool) (hr : Option.Rel (QtyTempo k) r r')
    (hs : Option.Rel (QtyTempo k) s s') (he : Option.Rel (QtyTempo k) e e')
    (hn : r.isSome = true → (v.clock id).time.absolute_enabled = true) :
    timeIntervalFunc v' id o r' s' e' si ei = timeIntervalFunc v id o r s e si ei := by
  have hc := (hv.clock id).time
  have ho : r.isSome = true → layerOffset o (v'.clock id).time.absolute_interval v'.queue =
      (layerOffset o (v.clock id).time.absolute_interval v.queue).map (k * ·) := by
    intro h
    rw [hc.interval (hn h), hv.queue, layerOffset_tempo]
  unfold timeIntervalFunc
  dsimp only
  rw [hc.absolute, hv.exact]
  cases hs with
  | none =>
    rw [repeatOk_tempo hk hr _ ho]
    cases he with
    | none => rfl
    | some he =>
      dsimp only
      rw [he]
      simp only [tempo_le hk, tempo_lt hk]
  | @some q q' hs =>
    have ho' : r.isSome = true →
        (if v.inExactTimeMode = true then some q'.val
          else layerOffset o (v'.clock id).time.absolute_interval v'.queue) =
        (if v.inExactTimeMode = true then some q.val
          else layerOffset o (v.clock id).time.absolute_interval v.queue).map (k * ·) := by
      intro h
      split
      · rw [hs]; rfl
      · exact ho h
    dsimp only
    rw [repeatOk_tempo hk hr _ ho', hs]
    cases he with
    | none => simp only [tempo_le hk, tempo_lt hk]
    | some he =>
      dsimp only
      rw [he]
      simp only [tempo_le hk, tempo_lt hk]

theorem sumCalls_tempo (hv : ViewTempo k v v') (id ts) (ds : List α) :
    sumCalls v' id ts ds = sumCalls v id ts ds := by
  induction ds with
  | nil => rfl
  | cons d ds ih => unfold sumCalls; rw [hv.total, ih]

theorem allHaveRun_tempo (hv : ViewTempo k v v') (id ts) (ds : List α) :
    allHaveRunFunc v' id ts ds = allHaveRunFunc v id ts ds := by
  induction ds with
  | nil => rfl
  | cons d ds ih => unfold allHaveRunFunc; rw [hv.total, ih]

theorem isFinished_tempo (hv : ViewTempo k v v') (id) (d : α) :
    isFinished v' id d = isFinished v id d := by
  unfold isFinished; rw [hv.world]

theorem finishedAny_tempo (hv : ViewTempo k v v') (id) (ds : List α) :
    finishedAny v' id ds = finishedAny v id ds := by
  induction ds with
  | nil => rfl
  | cons d ds ih => unfold finishedAny; rw [isFinished_tempo hv, ih]

theorem finishedAll_tempo (hv : ViewTempo k v v') (id) (ds : List α) :
    finishedAll v' id ds = finishedAll v id ds := by
  induction ds with
  | nil => rfl
  | cons d ds ih => unfold finishedAll; rw [isFinished_tempo hv, ih]

theorem evalTimeless (hv : ViewTempo k v v') (id : Option κ) (o : Option α) {l : Leaf α κ W}
    (h : Timeless l) : evalLeaf v' id o l = evalLeaf v id o l := by
  have h1 := fun q b => (hv.clock id).relative q b none
  have h2 := (hv.clock id).time.at_
  cases l with
  | func f => exact h.elim
  | timeInterval => exact h.elim
  | timeTermination => exact h.elim
  | _ => simp only [evalLeaf, relTime, callCount, justRanFunc, h1, h2, hv.total, hv.useable, hv.execList,
      hv.nodes, hv.world, sumCalls_tempo hv, allHaveRun_tempo hv, isFinished_tempo hv,
      finishedAny_tempo hv, finishedAll_tempo hv]

theorem evalLeaf_tempo (hk : 0 < k) (hv : ViewTempo k v v') (id : Option κ) (o : Option α) (x : OId)
    {l l' : Leaf α κ W} (h : LeafTempo k l l')
    (hn : hasRepeat (.leaf x l) = true → (v.clock id).time.absolute_enabled = true) :
    evalLeaf v' id o l' = evalLeaf v id o l := by
  cases h with
  | func h => exact h v v' id o hv
  | @timeInterval r r' s s' e e' si ei hr hs he =>
    refine timeInterval_tempo hk hv id o si ei hr hs he ?_
    intro h
    refine hn ?_
    cases r with
    | none => cases h
    | some r => rfl
  | timeTermination incl h =>
    simp only [evalLeaf, (hv.clock id).time.absolute]
    rw [h]
    simp only [ge_iff_le, gt_iff_lt, tempo_le hk, tempo_lt hk]
  | same h => exact evalTimeless hv id o h

mutual
theorem eval_tempo (hk : 0 < k) (hv : ViewTempo k v v') (id : Option κ) : ∀ (c c' : Cond α κ W),
    CondTempo k c c' → (hasRepeat c = true → (v.clock id).time.absolute_enabled = true) →
    ∀ st : Store α κ, eval v' id c' st = eval v id c st
  | .leaf o l, _, .leaf _ h, hn, st => by
    simp only [eval, evalLeaf_tempo hk hv id _ o h hn]
  | .whileNot o f, _, .whileNot _ h, hn, st => by
    simp only [eval]; rw [h v v' id _ hv]
  | .all o cs, _, .all _ h, hn, st => by
    simp only [eval]; exact evalAll_tempo hk hv id cs _ h hn st
  | .any o cs, _, .any _ h, hn, st => by
    simp only [eval]; exact evalAny_tempo hk hv id cs _ h hn st
  | .not o c, _, .not _ h, hn, st => by
    simp only [eval]; rw [eval_tempo hk hv id c _ h hn st]
  | .nwhen o c n, _, .nwhen _ _ h, hn, st => by
    simp only [eval]; rw [eval_tempo hk hv id c _ h hn st]
theorem evalAll_tempo (hk : 0 < k) (hv : ViewTempo k v v') (id : Option κ) : ∀ (c c' : List (Cond α κ W)),
    CondsTempo k c c' → (anyRepeat c = true → (v.clock id).time.absolute_enabled = true) →
    ∀ st : Store α κ, evalAll v' id c' st = evalAll v id c st
  | [], _, .nil, hn, st => rfl
  | c :: cs, _, .cons h h2, hn, st => by
    simp only [evalAll]
    rw [eval_tempo hk hv id c _ h (fun x => hn (by simp [anyRepeat, x])) st]
    rcases eval v id c st with ⟨e | b, st'⟩
    · rfl
    · cases b
      · rfl
      · exact evalAll_tempo hk hv id cs _ h2 (fun x => hn (by simp [anyRepeat, x])) st'
theorem evalAny_tempo (hk : 0 < k) (hv : ViewTempo k v v') (id : Option κ) : ∀ (c c' : List (Cond α κ W)),
    CondsTempo k c c' → (anyRepeat c = true → (v.clock id).time.absolute_enabled = true) →
    ∀ st : Store α κ, evalAny v' id c' st = evalAny v id c st
  | [], _, .nil, hn, st => rfl
  | c :: cs, _, .cons h h2, hn, st => by
    simp only [evalAny]
    rw [eval_tempo hk hv id c _ h (fun x => hn (by simp [anyRepeat, x])) st]
    rcases eval v id c st with ⟨e | b, st'⟩
    · rfl
    · cases b
      · exact evalAny_tempo hk hv id cs _ h2 (fun x => hn (by simp [anyRepeat, x])) st'
      · rfl
end

end

end GS
