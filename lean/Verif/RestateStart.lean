import Verif.RestateRule
import Verif.ReferenceFit
import Verif.EquivStart
/-!
# Absolute time in schedulers written down differently
-/

set_option linter.unusedSectionVars false

namespace GS
open Spec
variable {α κ W : Type _} [DecidableEq α] [DecidableEq κ]
variable {s0 s0' s s' t t' : Sys α κ W} {a a' : RunArgs α κ W}

/-! ## Times in conditions -/

mutual
theorem absolute_bare : ∀ c : Cond α κ W, (bare c).isAbsolute = c.isAbsolute ∧
    (bare c).intervals = c.intervals ∧ (bare c).fixedPoints = c.fixedPoints
  | .leaf _ _ | .whileNot _ _ | .nwhen _ _ _ | .not _ _ => ⟨rfl, rfl, rfl⟩
  | .all _ cs => by
    simp only [bare, Cond.isAbsolute, Cond.intervals, Cond.fixedPoints]; exact absolute_bares cs
  | .any _ cs => by
    simp only [bare, Cond.isAbsolute, Cond.intervals, Cond.fixedPoints]; exact absolute_bares cs
theorem absolute_bares : ∀ cs : List (Cond α κ W), anyAbsolute (bares cs) = anyAbsolute cs ∧
    intervalsOf (bares cs) = intervalsOf cs ∧ fixedPointsOf (bares cs) = fixedPointsOf cs
  | [] => ⟨rfl, rfl, rfl⟩
  | c :: cs => by
    obtain ⟨h1, h2, h3⟩ := absolute_bare c
    obtain ⟨h4, h5, h6⟩ := absolute_bares cs
    simp only [bares, anyAbsolute, intervalsOf, fixedPointsOf, h1, h2, h3, h4, h5, h6, and_self]
end

theorem firstPoint_bare {c c' : Cond α κ W} (h : bare c' = bare c) :
    Sys.firstPoint c' = Sys.firstPoint c := by
  unfold Sys.firstPoint
  rw [← (absolute_bare c').2.2, h, (absolute_bare c).2.2]

/-- The same conditions, in any order and with any repetitions. -/
def SameSaid (cs cs' : List (Cond α κ W)) : Prop :=
  (∀ c ∈ cs, ∃ c' ∈ cs', bare c' = bare c) ∧ ∀ c' ∈ cs', ∃ c ∈ cs, bare c' = bare c

theorem SameSaid.symm {cs cs' : List (Cond α κ W)} (h : SameSaid cs cs') : SameSaid cs' cs :=
  ⟨fun c hc => (h.2 c hc).imp fun _ k => ⟨k.1, k.2.symm⟩,
    fun c hc => (h.1 c hc).imp fun _ k => ⟨k.1, k.2.symm⟩⟩

theorem SameSaid.nil {cs cs' : List (Cond α κ W)} (h : SameSaid cs cs') : cs' = [] ↔ cs = [] := by
  constructor
  · rintro rfl
    cases cs with
    | nil => rfl
    | cons c cs => obtain ⟨_, k, _⟩ := h.1 c (by simp); cases k
  · rintro rfl
    cases cs' with
    | nil => rfl
    | cons c cs => obtain ⟨_, k, _⟩ := h.2 c (by simp); cases k

theorem SameSaid.flat {cs cs' : List (Cond α κ W)} (h : SameSaid cs cs') (m : Bool) :
    SameDurations (cs.flatMap fun c => c.intervals ++ (if m then c.fixedPoints else []))
      (cs'.flatMap fun c => c.intervals ++ (if m then c.fixedPoints else [])) := by
  have key : ∀ {cs cs' : List (Cond α κ W)}, SameSaid cs cs' → ∀ x : Rat,
      x ∈ (cs.flatMap fun c => c.intervals ++ (if m then c.fixedPoints else [])).map Qty.val →
      x ∈ (cs'.flatMap fun c => c.intervals ++ (if m then c.fixedPoints else [])).map Qty.val := by
    intro cs cs' h x hx
    obtain ⟨q, hq, rfl⟩ := List.mem_map.1 hx
    obtain ⟨c, hc, hqc⟩ := List.mem_flatMap.1 hq
    obtain ⟨c', hc', e⟩ := h.1 c hc
    refine List.mem_map.2 ⟨q, List.mem_flatMap.2 ⟨c', hc', ?_⟩, rfl⟩
    rw [← (absolute_bare c').2.1, ← (absolute_bare c').2.2, e, (absolute_bare c).2.1,
      (absolute_bare c).2.2]
    exact hqc
  exact fun x => ⟨key h.symm x, key h x⟩

theorem SameSaid.unit {cs cs' : List (Cond α κ W)} (h : SameSaid cs cs')
    (hm : s'.mode = s.mode) (hq : s'.queue.length = s.queue.length)
    (hu : s'.defaultUnit = s.defaultUnit) : s'.absoluteUnit cs' = s.absoluteUnit cs := by
  have hf := h.flat (decide (s.mode = Mode.exactTime))
  simp only [decide_eq_true_eq] at hf
  unfold Sys.absoluteUnit
  dsimp only
  rw [hm, hq, hu]
  generalize (cs.flatMap fun c => c.intervals ++
    (if s.mode = Mode.exactTime then c.fixedPoints else [])) = qs at hf ⊢
  generalize (cs'.flatMap fun c => c.intervals ++
    (if s.mode = Mode.exactTime then c.fixedPoints else [])) = qs' at hf ⊢
  by_cases hq : qs = []
  · rw [if_pos hq, if_pos (hf.nil.mpr hq)]
  · rw [if_neg hq, if_neg (fun k => hq (hf.nil.mp k))]
    have hg := gcdIn_vals hf
    have hk : ∀ x : Rat, (Sys.gcdIn (Sys.minExp qs') qs' : Rat) / x * (10 : Rat) ^ Sys.minExp qs' =
        (Sys.gcdIn (Sys.minExp qs) qs : Rat) / x * (10 : Rat) ^ Sys.minExp qs := by
      intro x; grind
    simp only [hk]

theorem SameSaid.advance {cs cs' : List (Cond α κ W)} (h : SameSaid cs cs') (z : Rat) :
    Sys.advanceTo z cs' = Sys.advanceTo z cs := by
  have key : ∀ {cs cs' : List (Cond α κ W)}, SameSaid cs cs' →
      Sys.advanceTo z cs' ≤ Sys.advanceTo z cs := by
    intro cs cs' h
    rcases advanceTo_mem z cs with e | ⟨c, hc, e⟩
    · rw [e]
      cases cs with
      | nil => rw [h.nil.2 rfl]; exact Rat.le_refl
      | cons c cs =>
        have h1 : Sys.advanceTo z (c :: cs) = max z (cs.foldl (fun m x => min m (Sys.firstPoint x))
          (Sys.firstPoint c)) := rfl
        have h2 : ∃ d ∈ c :: cs, cs.foldl (fun m x => min m (Sys.firstPoint x)) (Sys.firstPoint c) =
            Sys.firstPoint d := by
          rcases foldl_min_mem Sys.firstPoint cs (Sys.firstPoint c) with k | ⟨d, hd, k⟩
          · exact ⟨c, by simp, k⟩
          · exact ⟨d, by simp [hd], k⟩
        obtain ⟨d, hd, k⟩ := h2
        obtain ⟨d', hd', e'⟩ := h.1 d hd
        have h3 := advanceTo_le (cur := z) hd'
        rw [firstPoint_bare e', ← k, ← h1, e] at h3
        exact h3
    · obtain ⟨c', hc', e'⟩ := h.1 c hc
      have h3 := advanceTo_le (cur := z) hc'
      have h4 := le_advanceTo z cs
      rw [firstPoint_bare e', ← e] at h3
      grind
  exact Rat.le_antisymm (key h) (key h.symm)

/-! ## Conditions after earlier runs -/

/-- `s` has the conditions of `s0` and, besides, conditions that are not about absolute time. -/
structure CondsFrom (s0 s : Sys α κ W) : Prop where
  wf : Dict.WF s.conds
  old : ∀ n c, Dict.get? s0.conds n = some c → Dict.get? s.conds n = some c
  new : ∀ n c, Dict.get? s.conds n = some c → Dict.get? s0.conds n = some c ∨ c.isAbsolute = false
  mode : s.mode = s0.mode
  queue : s.queue = s0.queue
  unit : s.defaultUnit = s0.defaultUnit

theorem CondsFrom.refl (h : Dict.WF s0.conds) : CondsFrom s0 s0 :=
  ⟨h, fun _ _ k => k, fun _ _ k => .inl k, rfl, rfl, rfl⟩

theorem defaultLeaves_absolute : ∀ (k : Nat) (ds : List α),
    anyAbsolute (defaultLeaves (κ := κ) (W := W) k ds) = false
  | _, [] => rfl
  | k, d :: ds => by
    simp only [defaultLeaves, anyAbsolute, Cond.isAbsolute, Leaf.isAbsolute, Bool.false_or]
    exact defaultLeaves_absolute (k + 1) ds

theorem default_absolute (o : OId) : ∀ ds : List α,
    (Sys.defaultCond (κ := κ) (W := W) o ds).isAbsolute = false
  | [] => rfl
  | [_] => rfl
  | d :: d' :: ds => by
    simp only [Sys.defaultCond, Cond.isAbsolute, defaultLeaves_eq]
    exact defaultLeaves_absolute _ _

theorem validateConditions_wf : ∀ (ns : List α) (s : Sys α κ W) {s' : Sys α κ W} {e : Option Err},
    Dict.WF s.conds → Sys.validateConditions ns s = (s', e) → Dict.WF s'.conds
  | [], s, s', e, hw, h => by simp only [Sys.validateConditions, Prod.mk.injEq] at h; rw [← h.1]; exact hw
  | n :: ns, s, s', e, hw, h => by
    unfold Sys.validateConditions at h
    split at h
    · exact validateConditions_wf ns s hw h
    · split at h
      · cases h; exact hw
      · refine validateConditions_wf ns _ ?_ h
        exact Dict.WF.set hw _ _

theorem CondsFrom.start (hc : CondsFrom s0 s) {abs : Bool} (hs : s.start a = (t, .ok abs)) :
    CondsFrom s0 t := by
  have st := Sys.start_ok hs
  obtain ⟨_, k1, k2, k3⟩ := st.conds_spec
  refine ⟨?_, fun n c h => k1 n c (hc.old n c h), fun n c h => ?_, st.mode.trans hc.mode,
    st.queue.trans hc.queue, st.defaultUnit.trans hc.unit⟩
  · obtain ⟨s1, h1, h2, _⟩ := st.conds
    obtain ⟨q, hq⟩ := st.topo
    unfold Sys.validateRunState at h1
    simp only [hq] at h1
    rw [h2]
    exact validateConditions_wf _ _ hc.wf h1
  · cases hx : Dict.get? s.conds n with
    | some c' =>
      have := k1 n c' hx
      rw [h] at this
      injection this with this
      subst this
      exact hc.new n c hx
    | none =>
      by_cases hn : n ∈ s.nodes
      · obtain ⟨deps, c', _, e2, e3⟩ := k2 n hn hx
        rw [h] at e2
        injection e2 with e2
        subst e2
        obtain ⟨o, e, _⟩ := e3.ex
        rw [e]
        exact .inr (default_absolute o deps)
      · rw [k3 n hn, hx] at h; cases h

theorem CondsFrom.after (hc : CondsFrom s0 s) {abs : Bool} {w : List (List α) → World α κ W}
    {h : History α κ W} {pc : PC α} (hr : Scripted w a s abs h t pc) : CondsFrom s0 t := by
  have hre := hr.reach
  obtain ⟨s1, h1, h2, h3, h4⟩ := hre.conds_start (by rintro _ _ ⟨_, rfl⟩; rfl) (by rintro _ _ ⟨_, rfl⟩; rfl)
    (by rintro _ _ ⟨_, rfl⟩; exact Nat.le_refl _)
  have k := hc.start h1
  refine ⟨by rw [h2]; exact k.wf, by rw [h2]; exact k.old, by rw [h2]; exact k.new, ?_,
    (hre.keepQueue (by rintro _ _ ⟨_, rfl⟩; rfl)).trans hc.queue, ?_⟩
  · exact (hre.keep (fun s => s.mode) (by rintro _ _ ⟨_, rfl⟩; rfl) (fun _ _ f => f.mode)
      fun _ f => f.mode).trans hc.mode
  · exact (hre.keep (fun s => s.defaultUnit) (by rintro _ _ ⟨_, rfl⟩; rfl) (fun _ _ f => f.defaultUnit)
      fun _ f => f.defaultUnit).trans hc.unit

theorem Spec.CompleteRuns.condsFrom {id : Option κ} {runs : List (List (List (List α)))}
    (hc : CompleteRuns id s0 runs s) (hw : Dict.WF s0.conds) : CondsFrom s0 s := by
  induction hc with
  | nil => exact .refl hw
  | world x _ ih => exact ⟨ih.wf, ih.old, ih.new, ih.mode, ih.queue, ih.unit⟩
  | run _ _ _ _ hr ih => exact ih.after hr

theorem bares_map : ∀ cs : List (Cond α κ W), bares cs = cs.map bare
  | [] => rfl
  | c :: cs => by simp only [bares, List.map_cons, bares_map cs]

theorem Spec.RestatedArgs.symm (h : RestatedArgs a a') : RestatedArgs a' a :=
  ⟨h.id.symm, h.esu.symm, h.seq.symm, h.others.symm⟩

/-- Both schedulers have the same conditions on absolute time. -/
theorem Spec.Restated.said (h : Restated s0 s0') (ha : RestatedArgs a a') (hc : CondsFrom s0 s)
    (hc' : CondsFrom s0' s') : SameSaid (s.absoluteConds a) (s'.absoluteConds a') := by
  have key : ∀ {s0 s0' s s' : Sys α κ W} {a a' : RunArgs α κ W}, Restated s0 s0' → RestatedArgs a a' →
      CondsFrom s0 s → CondsFrom s0' s' →
      ∀ c ∈ s.absoluteConds a, ∃ c' ∈ s'.absoluteConds a', bare c' = bare c := by
    intro s0 s0' s s' a a' h ha hc hc' c hm
    unfold Sys.absoluteConds at hm ⊢
    obtain ⟨h1, h2⟩ := List.mem_filter.1 hm
    have fin : ∀ c', bare c' = bare c → c' ∈ (s'.conds.map Prod.snd) ++ a'.seq :: a'.esu :: a'.others →
        ∃ c' ∈ (s'.conds.map Prod.snd ++ a'.seq :: a'.esu :: a'.others).filter Cond.isAbsolute,
          bare c' = bare c := by
      intro c' e hm'
      refine ⟨c', List.mem_filter.2 ⟨hm', ?_⟩, e⟩
      rw [← (absolute_bare c').1, e, (absolute_bare c).1]; exact h2
    rcases List.mem_append.1 h1 with h1 | h1
    · obtain ⟨⟨n, c1⟩, hn, e⟩ := List.mem_map.1 h1
      simp only at e
      subst e
      have hg := Dict.get?_of_mem hc.wf hn
      rcases hc.new n c1 hg with k | k
      · have hcc := h.conds n
        rw [k] at hcc
        cases hx : Dict.get? s0'.conds n with
        | none => rw [hx] at hcc; cases hcc
        | some c' =>
          rw [hx] at hcc
          simp only [Option.map_some, Option.some.injEq] at hcc
          refine fin c' hcc (List.mem_append_left _ (List.mem_map.2 ⟨(n, c'), ?_, rfl⟩))
          exact Dict.mem_of_get? (hc'.old n c' hx)
      · rw [k] at h2; cases h2
    · rcases List.mem_cons.1 h1 with rfl | h1
      · exact fin a'.seq ha.seq (List.mem_append_right _ (by simp))
      · rcases List.mem_cons.1 h1 with rfl | h1
        · exact fin a'.esu ha.esu (List.mem_append_right _ (by simp))
        · have ho := ha.others
          rw [bares_map, bares_map] at ho
          have : bare c ∈ a'.others.map bare := by rw [ho]; exact List.mem_map.2 ⟨c, h1, rfl⟩
          obtain ⟨c', hc', e⟩ := List.mem_map.1 this
          exact fin c' e (List.mem_append_right _ (by simp [hc']))
  refine ⟨key h ha hc hc', fun c' hm => ?_⟩
  obtain ⟨c, k1, k2⟩ := key h.symm ha.symm hc' hc c' hm
  exact ⟨c, k1, k2.symm⟩

/-- The runs start in the same mode and at the same absolute time. -/
theorem Spec.Restated.startTime (h : Restated s0 s0') (ha : RestatedArgs a a') (hc : CondsFrom s0 s)
    (hc' : CondsFrom s0' s') {abs abs' : Bool} (hs : s.start a = (t, .ok abs))
    (hs' : s'.start a' = (t', .ok abs'))
    (htime : (s'.clock a.id).time.absolute = (s.clock a.id).time.absolute)
    (hint : (s'.clock a.id).time.absolute_interval = (s.clock a.id).time.absolute_interval) :
    abs' = abs ∧
    (t'.clock a.id).time.absolute = (t.clock a.id).time.absolute ∧
    (t'.clock a.id).time.absolute_interval = (t.clock a.id).time.absolute_interval := by
  have k := hc.start hs
  have k' := hc'.start hs'
  have hS := h.said ha k k'
  have hu := hS.unit (s := t) (s' := t') (by rw [k'.mode, k.mode, h.mode])
    (by rw [k'.queue, k.queue, h.queue.length]) (by rw [k'.unit, k.unit, h.unit])
  have r := Sys.start_abs hs
  have r' := Sys.start_abs hs'
  rw [ha.id] at r'
  rcases r with ⟨e1, e2, e3⟩ | ⟨e1, e2, u, e3, e4⟩ <;>
    rcases r' with ⟨f1, f2, f3⟩ | ⟨f1, f2, u', f3, f4⟩
  · rw [e3, f3]; exact ⟨by rw [e1, f1], htime, hint⟩
  · exact absurd (hS.nil.2 e2) f2
  · exact absurd (hS.nil.1 f2) e2
  · rw [hu, e3] at f3
    injection f3 with f3
    rw [e4, f4]
    refine ⟨by rw [e1, f1], ?_, f3.symm⟩
    dsimp only
    rw [hS.advance, htime]

end GS
