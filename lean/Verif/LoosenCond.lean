import Verif.LoosenRun
import Verif.PartGraph
/-!
# Lemmas: conditions that ask for less
-/

set_option linter.unusedSectionVars false

namespace GS
open Spec TimeScale
variable {α κ W : Type _} [DecidableEq α] [DecidableEq κ]
variable {id : Option κ} {v v' : View α κ W} {st st' : Store α κ} {ds ds' : List α} {ts : TimeScale}
variable {s s1 t t1 : Sys α κ W} {a a' : RunArgs α κ W}

theorem ahead_clock (h : Ahead id v v') {q ts : TimeScale} (hq : q.val < ts.val) (hq' : coarse q = true) :
    (v'.clock id).getTotalTimesRelative q ts = (v.clock id).getTotalTimesRelative q ts := by
  obtain ⟨log, log', h1, h2, h3⟩ := h.clock
  have hv : consideration_set_execution.val < q.val := by
    revert hq'; cases q <;> simp [coarse, val]
  have hr : Props.Recorded ts := by
    revert hv hq; cases ts <;> cases q <;> simp [val, Props.Recorded]
  rw [Props.clock_elapsed h1 hr hq, Props.clock_elapsed h2 hr hq,
    ← elapsed_coarse log hq' (Nat.lt_trans hv hq), ← elapsed_coarse log' hq' (Nat.lt_trans hv hq)]
  have h3 : log'.filter coarse = log.filter coarse := h3
  rw [h3]

theorem ahead_sequence (h : Ahead id v v') :
    (v'.clock id).time.at_ environment_sequence = (v.clock id).time.at_ environment_sequence := by
  obtain ⟨log, log', h1, h2, h3⟩ := h.clock
  have h3 : log'.filter coarse = log.filter coarse := h3
  obtain ⟨_, _, e1⟩ := shows_iff.1 h1
  obtain ⟨_, _, e2⟩ := shows_iff.1 h2
  rw [e1, e2, ← field_coarse log (by rfl), ← field_coarse log' (by rfl), h3]

theorem ahead_total (h : Ahead id v v') (hts : TimeScale.pass.val < ts.val) {d : α} {n n' : Nat}
    (h1 : v.total id ts d = .ok n) (h2 : v'.total id ts d = .ok n') : n ≤ n' := by
  obtain ⟨f, f', k1, k2, k3⟩ := h.calls
  unfold View.total at h1 h2
  rw [k1] at h1
  rw [k2] at h2
  have := k3 ts d hts
  by_cases hd : d ∈ v.nodes
  · have hd' : d ∈ v'.nodes := by rw [h.nodes]; exact hd
    simp [hd] at h1; simp [hd'] at h2
    omega
  · simp [hd] at h1

theorem ahead_rel (h : Ahead id v v') {q : TimeScale} (hq : q.val < ts.val) (hq' : coarse q = true)
    {p p' : Int → Bool} (hp : ∀ k, p k = true → p' k = true) (h1 : relTime v id q ts p = .ok true) :
    relTime v' id q ts p' ≠ .ok false := by
  unfold relTime at h1 ⊢
  rw [ahead_clock h hq hq']
  cases hc : (v.clock id).getTotalTimesRelative q ts with
  | error e => nofun
  | ok n =>
    rw [hc] at h1
    have : p n = true := by simpa using h1
    simp [hp _ this]

theorem ahead_calls (h : Ahead id v v') (hts : TimeScale.pass.val < ts.val) {d : α}
    {p p' : Int → Bool} (hp : ∀ k k', k ≤ k' → p k = true → p' k' = true)
    (h1 : callCount v id ts d p = .ok true) : callCount v' id ts d p' ≠ .ok false := by
  unfold callCount at h1 ⊢
  cases hc : v.total id ts d with
  | error e => rw [hc] at h1; cases h1
  | ok n =>
    cases hc' : v'.total id ts d with
    | error e => nofun
    | ok n' =>
      rw [hc] at h1
      have h2 : p n = true := by simpa using h1
      have := ahead_total h hts hc hc'
      simp [hp n n' (by omega) h2]

theorem ahead_sum (h : Ahead id v v') (hts : TimeScale.pass.val < ts.val) (ds : List α) : ∀ {n n' : Nat},
    sumCalls v id ts ds = .ok n → sumCalls v' id ts ds = .ok n' → n ≤ n' := by
  induction ds with
  | nil => intro n n' h1 h2; cases h1; cases h2; exact Nat.le_refl _
  | cons d ds ih =>
    intro n n' h1 h2
    simp only [sumCalls] at h1 h2
    cases hc : v.total id ts d with
    | error e => rw [hc] at h1; cases h1
    | ok m =>
      cases hc' : v'.total id ts d with
      | error e => rw [hc'] at h2; cases h2
      | ok m' =>
        rw [hc] at h1; rw [hc'] at h2
        cases hs : sumCalls v id ts ds with
        | error e => simp [hs] at h1
        | ok x =>
          cases hs' : sumCalls v' id ts ds with
          | error e => simp [hs'] at h2
          | ok x' =>
            simp [hs] at h1; simp [hs'] at h2
            have := ih hs hs'
            have := ahead_total h hts hc hc'
            omega

theorem allHaveRun_true : ∀ {ds : List α}, allHaveRunFunc v id ts ds = .ok true →
    ∀ d ∈ ds, ∃ n, v.total id ts d = .ok n ∧ 1 ≤ n := by
  intro ds
  induction ds with
  | nil => nofun
  | cons d ds ih =>
    intro h
    simp only [allHaveRunFunc] at h
    cases hc : v.total id ts d with
    | error e => rw [hc] at h; cases e <;> cases h
    | ok n =>
      rw [hc] at h
      by_cases hn : n < 1
      · simp [hn] at h
      · simp [hn] at h
        intro x hx
        rcases List.mem_cons.1 hx with rfl | hx
        · exact ⟨n, hc, by omega⟩
        · exact ih h x hx

theorem allHaveRun_false : ∀ {ds : List α}, allHaveRunFunc v id ts ds = .ok false →
    ∃ d ∈ ds, ∃ n, v.total id ts d = .ok n ∧ n < 1 := by
  intro ds
  induction ds with
  | nil => nofun
  | cons d ds ih =>
    intro h
    simp only [allHaveRunFunc] at h
    cases hc : v.total id ts d with
    | error e => rw [hc] at h; cases e <;> cases h
    | ok n =>
      rw [hc] at h
      by_cases hn : n < 1
      · exact ⟨d, by simp, n, hc, hn⟩
      · simp [hn] at h
        obtain ⟨x, h1, h2⟩ := ih h
        exact ⟨x, by simp [h1], h2⟩

theorem Spec.LooserLeaf.eases {k k' : Leaf α κ W} (hk : LooserLeaf k k') (h : Ahead id v v')
    {o o' : Option α} (h1 : evalLeaf v id o k = .ok true) : evalLeaf v' id o' k' ≠ .ok false := by
  have fin : ∀ d, isFinished v' id d = isFinished v id d := fun d => by unfold isFinished; rw [h.world]
  cases hk with
  | never => cases h1
  | always => nofun
  | func f f' hf => exact hf _ _ _ _ _ h.world h1
  | beforePass h2 h3 => simp only [evalLeaf] at h1 ⊢; refine ahead_rel h h2 rfl ?_ h1; intro k hk; simp only [decide_eq_true_eq] at hk ⊢; omega
  | atPass h2 => simp only [evalLeaf] at h1 ⊢; refine ahead_rel h h2 rfl ?_ h1; intro k hk; simp only [decide_eq_true_eq] at hk ⊢; omega
  | afterPass h2 h3 => simp only [evalLeaf] at h1 ⊢; refine ahead_rel h h2 rfl ?_ h1; intro k hk; simp only [decide_eq_true_eq] at hk ⊢; omega
  | afterNPasses h2 h3 => simp only [evalLeaf] at h1 ⊢; refine ahead_rel h h2 rfl ?_ h1; intro k hk; simp only [decide_eq_true_eq] at hk ⊢; omega
  | @everyNPasses n n' ts h2 h3 =>
    simp only [evalLeaf] at h1 ⊢
    rw [ahead_clock h h2 rfl]
    cases hc : (v.clock id).getTotalTimesRelative pass ts with
    | error e => nofun
    | ok k =>
      rw [hc] at h1
      by_cases hn' : n' = 0
      · simp [hn']
      · by_cases hn : n = 0
        · simp [hn] at h1
        · simp [hn] at h1
          have := Int.dvd_trans h3 (Int.dvd_of_fmod_eq_zero h1)
          simp [hn', Int.fmod_eq_zero_of_dvd this]
  | beforeUpdate h2 h3 => simp only [evalLeaf] at h1 ⊢; refine ahead_rel h h2 rfl ?_ h1; intro k hk; simp only [decide_eq_true_eq] at hk ⊢; omega
  | atUpdate h2 => simp only [evalLeaf] at h1 ⊢; refine ahead_rel h h2 rfl ?_ h1; intro k hk; simp only [decide_eq_true_eq] at hk ⊢; omega
  | afterUpdate h2 h3 => simp only [evalLeaf] at h1 ⊢; refine ahead_rel h h2 rfl ?_ h1; intro k hk; simp only [decide_eq_true_eq] at hk ⊢; omega
  | afterNUpdates h2 h3 => simp only [evalLeaf] at h1 ⊢; refine ahead_rel h h2 rfl ?_ h1; intro k hk; simp only [decide_eq_true_eq] at hk ⊢; omega
  | atSequence => simp only [evalLeaf, ahead_sequence h] at h1 ⊢; rw [h1]; nofun
  | afterSequence h2 =>
    simp only [evalLeaf, ahead_sequence h] at h1 ⊢
    simp at h1 ⊢; omega
  | afterNSequences h2 =>
    simp only [evalLeaf, ahead_sequence h] at h1 ⊢
    simp at h1 ⊢; omega
  | afterCall h2 h3 => simp only [evalLeaf] at h1 ⊢; refine ahead_calls h h2 ?_ h1; intro k k' hk hp; simp only [decide_eq_true_eq] at hp ⊢; omega
  | afterNCalls h2 h3 => simp only [evalLeaf] at h1 ⊢; refine ahead_calls h h2 ?_ h1; intro k k' hk hp; simp only [decide_eq_true_eq] at hp ⊢; omega
  | atNCalls h2 h3 => simp only [evalLeaf] at h1 ⊢; refine ahead_calls h h2 ?_ h1; intro k k' hk hp; simp only [decide_eq_true_eq] at hp ⊢; omega
  | @combined ds n n' ts h2 h3 =>
    simp only [evalLeaf] at h1 ⊢
    cases hs : sumCalls v id ts ds with
    | error e => simp [hs] at h1
    | ok x =>
      cases hs' : sumCalls v' id ts ds with
      | error e => simp
      | ok x' =>
        have := ahead_sum h h2 ds hs hs'
        simp [hs] at h1
        simp; omega
  | @allHaveRun ds ds' ts h2 h3 =>
    simp only [evalLeaf] at h1 ⊢
    intro h4
    obtain ⟨d, k1, n, k2, k3⟩ := allHaveRun_false h4
    have hd : d ∈ (if ds = [] then v.nodes else ds) := by
      rcases h3 with rfl | ⟨h5, h6, h7⟩
      · rw [h.nodes] at k1; exact k1
      · rw [if_neg h6] at k1; rw [if_neg h5]; exact h7 d k1
    obtain ⟨m, k4, k5⟩ := allHaveRun_true h1 d hd
    have := ahead_total h h2 k4 k2
    omega
  | whenFinished => simp only [evalLeaf, fin] at h1 ⊢; rw [h1]; nofun
  | @whenFinishedAny ds =>
    have : ∀ ds : List α, finishedAny v' id ds = finishedAny v id ds := by
      intro ds; induction ds with
      | nil => rfl
      | cons d ds ih => simp only [finishedAny, fin, ih]
    simp only [evalLeaf, this, h.nodes] at h1 ⊢; rw [h1]; nofun
  | @whenFinishedAll ds =>
    have : ∀ ds : List α, finishedAll v' id ds = finishedAll v id ds := by
      intro ds; induction ds with
      | nil => rfl
      | cons d ds ih => simp only [finishedAll, fin, ih]
    simp only [evalLeaf, this, h.nodes] at h1 ⊢; rw [h1]; nofun
  | threshold => simp only [evalLeaf, h.world] at h1 ⊢; rw [h1]; nofun

theorem evalAll_true_each {cs : List (Cond α κ W)} : ∀ {st : Store α κ}, (evalAll v id cs st).1 = .ok true →
    ∀ c ∈ cs, ∃ st, (eval v id c st).1 = .ok true := by
  induction cs with
  | nil => intro st _; nofun
  | cons c cs ih =>
    intro st h x hx
    rw [evalAll] at h
    cases he : eval v id c st with
    | mk r st1 =>
      rw [he] at h
      cases r with
      | error e => cases h
      | ok b =>
        cases b with
        | false => cases h
        | true =>
          rcases List.mem_cons.1 hx with rfl | hx
          · exact ⟨st, by rw [he]⟩
          · exact ih h x hx

theorem evalAll_false_one {cs : List (Cond α κ W)} : ∀ {st : Store α κ}, (evalAll v id cs st).1 = .ok false →
    ∃ c ∈ cs, ∃ st, (eval v id c st).1 = .ok false := by
  induction cs with
  | nil => intro st h; rw [evalAll] at h; cases h
  | cons c cs ih =>
    intro st h
    rw [evalAll] at h
    cases he : eval v id c st with
    | mk r st1 =>
      rw [he] at h
      cases r with
      | error e => cases h
      | ok b =>
        cases b with
        | false => exact ⟨c, by simp, st, by rw [he]⟩
        | true =>
          obtain ⟨x, h1, h2⟩ := ih h
          exact ⟨x, by simp [h1], h2⟩

theorem evalAny_true_one {cs : List (Cond α κ W)} : ∀ {st : Store α κ}, (evalAny v id cs st).1 = .ok true →
    ∃ c ∈ cs, ∃ st, (eval v id c st).1 = .ok true := by
  induction cs with
  | nil => intro st h; rw [evalAny] at h; cases h
  | cons c cs ih =>
    intro st h
    rw [evalAny] at h
    cases he : eval v id c st with
    | mk r st1 =>
      rw [he] at h
      cases r with
      | error e => cases h
      | ok b =>
        cases b with
        | true => exact ⟨c, by simp, st, by rw [he]⟩
        | false =>
          obtain ⟨x, h1, h2⟩ := ih h
          exact ⟨x, by simp [h1], h2⟩

theorem evalAny_false_each {cs : List (Cond α κ W)} : ∀ {st : Store α κ}, (evalAny v id cs st).1 = .ok false →
    ∀ c ∈ cs, ∃ st, (eval v id c st).1 = .ok false := by
  induction cs with
  | nil => intro st _; nofun
  | cons c cs ih =>
    intro st h x hx
    rw [evalAny] at h
    cases he : eval v id c st with
    | mk r st1 =>
      rw [he] at h
      cases r with
      | error e => cases h
      | ok b =>
        cases b with
        | true => cases h
        | false =>
          rcases List.mem_cons.1 hx with rfl | hx
          · exact ⟨st, by rw [he]⟩
          · exact ih h x hx

theorem Spec.Looser.eases {c c' : Cond α κ W} (hc : Looser c c') : Eases id c c' := by
  induction hc with
  | leaf o o' k k' hk =>
    intro v v' st st' h h1
    simp only [eval] at h1 ⊢
    exact hk.eases h h1
  | never o c' => intro v v' st st' h h1; cases h1
  | always c o' => intro v v' st st' h h1; nofun
  | all o o' cs cs' pick h1 h2 ih =>
    intro v v' st st' h h3 h4
    rw [eval] at h3 h4
    obtain ⟨c', k1, st2, k2⟩ := evalAll_false_one h4
    obtain ⟨st3, k3⟩ := evalAll_true_each h3 _ (h1 c' k1)
    exact ih c' k1 v v' st3 st2 h k3 k2
  | any o o' cs cs' pick h1 h2 ih =>
    intro v v' st st' h h3 h4
    rw [eval] at h3 h4
    obtain ⟨c, k1, st2, k2⟩ := evalAny_true_one h3
    obtain ⟨st3, k3⟩ := evalAny_false_each h4 _ (h1 c k1)
    exact ih c k1 v v' st2 st3 h k2 k3
  | drop h1 h2 ih =>
    intro v v' st st' h h3 h4
    rw [eval] at h3
    obtain ⟨st3, k3⟩ := evalAll_true_each h3 _ h1
    exact ih v v' st3 st' h k3 h4
  | or h1 h2 ih =>
    intro v v' st st' h h3 h4
    rw [eval] at h4
    obtain ⟨st3, k3⟩ := evalAny_false_each h4 _ h1
    exact ih v v' st st3 h h3 k3

/-- When the runs have begun. -/
theorem Spec.LoosensGiven.start (hid : a'.id = a.id) (h : LoosensGiven a.id s t) {abs abs' : Bool}
    (hs : s.start a = (s1, .ok abs)) (ht : t.start a' = (t1, .ok abs')) : Loosens a.id s1 t1 := by
  have S := Sys.start_ok hs
  have T := Sys.start_ok ht
  refine ⟨by rw [S.queue, T.queue, h.queue], by rw [S.queue]; exact h.once, ⟨?_, ?_, ?_, ?_⟩, ?_⟩
  · rw [S.nodes, T.nodes]; exact h.ahead.nodes
  · rw [S.world, T.world]; exact h.ahead.world
  · obtain ⟨f, f', g1, g2, g3⟩ := h.ahead.calls
    obtain ⟨k, k1, k2, k3, _⟩ := S.total
    obtain ⟨k', k1', k2', k3', _⟩ := T.total
    rw [hid] at k1' k3'
    refine ⟨k, k', k1, k1', fun ts n hn => ?_⟩
    by_cases hv : ts.val ≤ 2
    · rw [k2 ts n hv, k2' ts n hv]; exact Nat.le_refl _
    · rw [k3 f g1 ts n (by omega), k3' f' g2 ts n (by omega)]; exact g3 ts n hn
  · obtain ⟨l, l', g1, g2, g3⟩ := h.ahead.clock
    have := T.shows (by rw [hid]; exact g2)
    rw [hid] at this
    exact ⟨l, l', S.shows g1, this, g3⟩
  · intro n hn
    rw [S.queue] at hn
    obtain ⟨x1, x2, x3, _⟩ := S.conds_spec
    obtain ⟨y1, y2, y3, _⟩ := T.conds_spec
    rcases h.conds n hn with ⟨g0, g1, g2, g3⟩ | ⟨c, c', g1, g2, g3, g4, g5⟩
    · obtain ⟨deps, c, e1, e2, e3⟩ := x3 n g0 g1
      obtain ⟨deps', c', e1', e2', e3'⟩ := y3 n (by rw [h.ahead.nodes]; exact g0) g2
      rw [h.graph] at e1'
      rw [e1] at e1'; cases e1'
      obtain ⟨o, rfl, _, h3, _⟩ := e3.ex
      obtain ⟨o', rfl, _, h3', _⟩ := e3'.ex
      refine ⟨_, _, e2, e2', ?_⟩
      rcases g3 with g3 | ⟨d, g3, g4⟩
      · rw [e1] at g3; cases g3
        exact .inl (Looser.leaf _ _ _ _ (.always _)).eases
      · rw [e1] at g3; cases g3
        exact .inr ⟨o, d, 1, o', 1, rfl, rfl, by decide, by decide, h3 d rfl, h3' d rfl, by rw [S.queue]; exact g4⟩
    · refine ⟨c, c', x2 n c g1, y2 n c' g2, ?_⟩
      rcases g3 with g3 | ⟨o, d, k, o', k', rfl, rfl, q1, q2, q3, q4, q5⟩
      · exact .inl g3
      · refine .inr ⟨o, d, k, o', k', rfl, rfl, q1, q2, ?_, ?_, by rw [S.queue]; exact q5⟩
        · rw [x1.owner o (g4 o rfl)]; exact q3
        · rw [y1.owner o' (g5 o' rfl)]; exact q4

end GS
