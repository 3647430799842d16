import Verif.Spec.RatedList
import Verif.Props.EveryN
import Verif.Props.Order
/-!
# The complete schedule of nodes with rates
-/

set_option linter.unusedSectionVars false

namespace GS
open Spec Props
variable {α κ W : Type _} [DecidableEq α] [DecidableEq κ]
variable {E : Sys α κ W → Sys α κ W → Prop} {a : RunArgs α κ W} {s0 s1 s : Sys α κ W}
variable {abs : Bool} {h : History α κ W} {pc : PC α}

/-- What the first `k` consideration sets give in the `p`-th pass, without empty sets. -/
def partPass (rate : α → Nat) (q : List (List α)) (p k : Nat) : List (List α) :=
  ((q.take k).map fun layer => layer.filter fun n => decide (rate n ∣ p)).filter fun x => !x.isEmpty

theorem orEmpty_filter (l : List (List α)) :
    orEmpty (l.filter fun x => !x.isEmpty) = orEmpty l := by
  unfold orEmpty; rw [List.filter_filter]; simp

theorem orEmpty_of_ne {l : List (List α)} (h1 : ∀ x ∈ l, x ≠ []) (h2 : l ≠ []) : orEmpty l = l := by
  unfold orEmpty
  rw [List.filter_eq_self.2 (fun x hx => by simpa using h1 x hx)]
  cases l with
  | nil => exact absurd rfl h2
  | cons => rfl

theorem partPass_ne (rate : α → Nat) (q : List (List α)) (p k : Nat) :
    ∀ x ∈ partPass rate q p k, x ≠ [] := by
  intro x hx
  simpa using (List.mem_filter.1 hx).2

theorem partPass_all {rate : α → Nat} {q : List (List α)} {p k : Nat} (hk : q.length ≤ k) :
    orEmpty (partPass rate q p k) = ratedPass rate q p := by
  unfold partPass ratedPass
  rw [orEmpty_filter, List.take_of_length_le hk]

theorem partPass_succ {rate : α → Nat} {q : List (List α)} {p k : Nat} {layer : List α}
    (hk : q[k]? = some layer) :
    partPass rate q p (k + 1) = partPass rate q p k ++
      [layer.filter fun n => decide (rate n ∣ p)].filter fun x => !x.isEmpty := by
  unfold partPass
  rw [List.take_add_one, hk]
  simp only [Option.toList_some, List.map_append, List.filter_append, List.map_cons, List.map_nil]

theorem partPass_prefix (rate : α → Nat) (q : List (List α)) (p k : Nat)
    (hne : partPass rate q p k ≠ []) : ∃ r, ratedPass rate q p = partPass rate q p k ++ r := by
  have h1 : partPass rate q p q.length = partPass rate q p k ++
      ((q.drop k).map fun layer => layer.filter fun n => decide (rate n ∣ p)).filter
        fun x => !x.isEmpty := by
    unfold partPass
    rw [← List.filter_append, ← List.map_append, List.take_append_drop, List.take_length]
  rw [← partPass_all (Nat.le_refl _), orEmpty_of_ne (partPass_ne _ _ _ _) (by
    rw [h1]; intro h2; exact hne (List.append_eq_nil_iff.1 h2).1), h1]
  exact ⟨_, rfl⟩

theorem ratedSchedule_succ (rate : α → Nat) (q : List (List α)) (N : Nat) :
    ratedSchedule rate q (N + 1) = ratedSchedule rate q N ++ ratedPass rate q (N + 1) := by
  unfold ratedSchedule
  rw [List.range_succ, List.flatMap_append]; simp

theorem ratedSchedule_le (rate : α → Nat) (q : List (List α)) {N M : Nat} (hNM : N ≤ M) :
    ∃ r, ratedSchedule rate q M = ratedSchedule rate q N ++ r := by
  induction hNM with
  | refl => exact ⟨[], by simp⟩
  | step _ ih =>
    obtain ⟨r, hr⟩ := ih
    exact ⟨_, by rw [ratedSchedule_succ, hr, List.append_assoc]⟩

/-- What has been yielded, by program counter. -/
def ListAt (rate : α → Nat) (q : List (List α)) (h : History α κ W) : PC α → Prop
  | .inner k ch => SameSets (yields h)
      (ratedSchedule rate q (passes h - 1) ++ partPass rate q (passes h) k) ∧
      (ch = true ↔ partPass rate q (passes h) k ≠ [])
  | .choosing c => SameSets (yields h)
      (ratedSchedule rate q (passes h - 1) ++ partPass rate q (passes h) c.idx) ∧
      (c.changed = true ↔ partPass rate q (passes h) c.idx ≠ [])
  | .yielded k ch => SameSets (yields h)
      (ratedSchedule rate q (passes h - 1) ++ partPass rate q (passes h) (k + 1)) ∧
      (ch = true ↔ partPass rate q (passes h) (k + 1) ≠ [])
  | .raised _ => True
  | _ => (¬ InPass h → yields h = []) ∧
      (InPass h → ∃ k, setsConsidered (currentPass h) = List.range k ∧ k ≤ q.length ∧
        SameSets (yields h)
          (ratedSchedule rate q (passes h - 1) ++ orEmpty (partPass rate q (passes h) k)))

theorem listAt_complete {rate : α → Nat} {q : List (List α)} {h : History α κ W}
    (h1 : ¬ InPass h → yields h = [])
    (h2 : InPass h → ∃ k, setsConsidered (currentPass h) = List.range k ∧ k ≤ q.length ∧
        SameSets (yields h)
          (ratedSchedule rate q (passes h - 1) ++ orEmpty (partPass rate q (passes h) k)))
    (hc : InPass h → q.length - 1 ∈ setsConsidered (currentPass h)) :
    SameSets (yields h) (ratedSchedule rate q (passes h)) := by
  by_cases hi : InPass h
  · obtain ⟨k, e1, e2, e3⟩ := h2 hi
    have := hc hi
    rw [e1, List.mem_range] at this
    rw [partPass_all (by omega)] at e3
    have hp := inPass_pos hi
    obtain ⟨p, hp⟩ : ∃ p, passes h = p + 1 := ⟨passes h - 1, by omega⟩
    rw [hp, ratedSchedule_succ]
    rw [hp] at e3
    exact e3
  · rw [h1 hi, passes_zero hi]; exact .nil

theorem Reach.ratedList (hr : Reach E a s0 false h s pc) (hE : Leaves' E a)
    (hq : s0.queue.flatten.Nodup) (hqn : ∀ n ∈ s0.queue.flatten, n ∈ s0.nodes)
    {rate : α → Nat} (hG : AllRated s0 rate) (hp : PassesReach (s0.queue.length - 1) h) :
    ListAt rate s0.queue h pc := by
  generalize hab : false = ab at hr
  induction hr with
  | start hs => exact ⟨fun _ => rfl, fun ⟨e, he, _⟩ => by cases he⟩
  | env hr _ _ ih => exact ih hp hab
  | @step abs h s s' pc pc' ev hr hs ih =>
    subst hab
    have hr' := Reach.step hr hs
    have ih := ih (Spec.PassesReach.prefix hp) rfl
    have hst := Sys.step_stepR hs
    change PassesReach _ (ext h s ev s') at hp
    change ListAt rate s0.queue (ext h s ev s') pc'
    change Reach E a s0 false (ext h s ev s') s' pc' at hr'
    have yl : ∀ x : Event α, yields (ext h s (some x) s') = yields h ++ x.yield?.toList := by
      intro x; rw [ext_some, yields_snoc]
    have psame : ∀ x : Event α, x ≠ .passStart → passes (ext h s (some x) s') = passes h := by
      intro x hx; rw [passes_ext, if_neg hx]; rfl
    have dealt : ∀ (c : Choice α) (shown : Bool), pc = .choosing c →
        ev = some (.layer c.idx c.exec shown) →
        s0.queue[c.idx]? = some c.layer ∧
        SameMembers c.exec (c.layer.filter fun n => decide (rate n ∣ passes h)) := by
      rintro c shown rfl rfl
      have ci := hr.choice c rfl
      have hqc : s0.queue[c.idx]? = some c.layer := by rw [← hr.keepQueue hE.queue]; exact ci.queue
      refine ⟨hqc, fun n => ?_⟩
      rw [List.mem_filter]
      have key : ∀ (hn : n ∈ c.layer), n ∈ c.exec ↔ rate n ∣ passes h := by
        intro hn
        have hat : At s0.queue c.idx n := ⟨c.layer, hqc, hn⟩
        rw [ext_some] at hr' hp
        exact C62_when hr' hE hq hqn hG hp (h2 := []) rfl rfl (hqn n (At.mem hat)) hat
      constructor
      · intro hn; exact ⟨ci.sub n hn, by simpa using (key (ci.sub n hn)).1 hn⟩
      · rintro ⟨hn, hx⟩; exact (key hn).2 (by simpa using hx)
    cases hst with
    | pass hg =>
      have := listAt_complete ih.1 ih.2 (fun hin => by
        rw [ext_some] at hp
        exact hp h _ [] rfl rfl hin)
      refine ⟨?_, ?_⟩
      · rw [yl, passes_ext]
        simpa [Event.yield?, partPass] using this
      · simp [partPass]
    | stopSkip =>
      refine ⟨fun hi => ?_, fun hi => ?_⟩
      · rw [yl, ih.1 (fun h => hi ((inPass_ext _ _ _ _ (by simp)).2 h))]; rfl
      · obtain ⟨k, e1, e2, e3⟩ := ih.2 ((inPass_ext _ _ _ _ (by simp)).1 hi)
        refine ⟨k, by rw [setsConsidered_cur_ext _ _ _ _ (by simp) (by simp)]; exact e1, e2, ?_⟩
        rw [yl, psame _ (by simp)]; simpa [Event.yield?] using e3
    | stopIncr =>
      refine ⟨fun hi => ?_, fun hi => ?_⟩
      · rw [yl, ih.1 (fun h => hi ((inPass_ext _ _ _ _ (by simp)).2 h))]; rfl
      · obtain ⟨k, e1, e2, e3⟩ := ih.2 ((inPass_ext _ _ _ _ (by simp)).1 hi)
        refine ⟨k, by rw [setsConsidered_cur_ext _ _ _ _ (by simp) (by simp)]; exact e1, e2, ?_⟩
        rw [yl, psame _ (by simp)]; simpa [Event.yield?] using e3
    | @passEnd idx ch _ _ _ hch =>
      rw [ext_none]
      refine ⟨fun hi => absurd hr.inPass hi, fun _ => ?_⟩
      obtain ⟨k, hk, e1, e2⟩ := hr.considered_range hE.queue
      cases hk
      refine ⟨idx, e1, e2, ?_⟩
      rw [orEmpty_of_ne (partPass_ne _ _ _ _) (ih.2.1 (by simpa using hch))]
      exact ih.1
    | @emptyYield idx =>
      refine ⟨fun hi => absurd ((inPass_ext _ _ _ _ (by simp)).2 hr.inPass) hi, fun _ => ?_⟩
      obtain ⟨k, hk, e1, e2⟩ := hr.considered_range hE.queue
      cases hk
      refine ⟨idx, by rw [setsConsidered_cur_ext _ _ _ _ (by simp) (by simp)]; exact e1, e2, ?_⟩
      have h0 : partPass rate s0.queue (passes h) idx = [] := by
        apply Classical.byContradiction
        intro hx; have := ih.2.2 hx; cases this
      rw [yl, psame _ (by simp), h0]
      have := ih.1
      rw [h0, List.append_nil] at this
      exact this.append (.cons (fun _ => Iff.rfl) .nil)
    | consider =>
      refine ⟨?_, ?_⟩
      · rw [yl, psame _ (by simp)]; simpa [Event.yield?] using ih.1
      · rw [psame _ (by simp)]; exact ih.2
    | again => rw [ext_none]; exact ih
    | skip => rw [ext_none]; exact ih
    | reject => rw [ext_none]; exact ih
    | add =>
      refine ⟨?_, ?_⟩
      · rw [yl, psame _ (by simp)]; simpa [Event.yield?] using ih.1
      · rw [psame _ (by simp)]; exact ih.2
    | @yield c l ht hag _ hne =>
      obtain ⟨d1, d2⟩ := dealt c true rfl rfl
      have hne' : (c.layer.filter fun n => decide (rate n ∣ passes h)) ≠ [] := by
        intro hx
        rw [hx] at d2
        obtain ⟨n, hn⟩ := List.exists_mem_of_ne_nil _ hne
        exact absurd ((d2 n).1 hn) (by simp)
      have hp1 := partPass_succ (rate := rate) (p := passes h) d1
      rw [List.filter_cons_of_pos (by simpa using hne')] at hp1
      refine ⟨?_, ?_⟩
      · rw [yl, psame _ (by simp), hp1, ← List.append_assoc]
        exact ih.1.append (.cons d2 .nil)
      · rw [psame _ (by simp), hp1]; simp
    | yieldAbs _ _ ha => cases ha
    | @silent c ht hag _ hne =>
      obtain ⟨d1, d2⟩ := dealt c false rfl (by rw [hne])
      have h0 : (c.layer.filter fun n => decide (rate n ∣ passes h)) = [] := by
        apply Classical.byContradiction
        intro hx
        obtain ⟨n, hn⟩ := List.exists_mem_of_ne_nil _ hx
        have := (d2 n).2 hn
        rw [hne] at this; cases this
      have hp1 := partPass_succ (rate := rate) (p := passes h) d1
      rw [h0] at hp1
      simp only [List.isEmpty_nil, Bool.not_true, Bool.false_eq_true, not_false_eq_true,
        List.filter_cons_of_neg, List.filter_nil, List.append_nil] at hp1
      refine ⟨?_, ?_⟩
      · rw [yl, psame _ (by simp), hp1]; simpa [Event.yield?] using ih.1
      · rw [psame _ (by simp), hp1]; exact ih.2
    | resume => rw [ext_none]; exact ih
    | resumeEmpty => rw [ext_none]; exact ih
    | returned => rw [ext_none]; exact ih
    | raised => trivial
    | fails => trivial

end GS
