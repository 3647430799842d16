import Verif.RunWhole
import Verif.LifeDefault
import Verif.Rates
import Verif.Props.Threshold
import Verif.Spec.Safe
/-!
# Conditions that cannot fail, and why a run raises (C90)
-/

set_option linter.unusedSectionVars false

namespace GS
open Spec Props TimeScale
variable {α κ W : Type _} [DecidableEq α] [DecidableEq κ]
variable {E : Sys α κ W → Sys α κ W → Prop} {a : RunArgs α κ W} {s0 s s' : Sys α κ W}
variable {abs : Bool} {h : History α κ W} {pc pc' : PC α} {ev : Option (Event α)}

/-! ## A step that raises -/

namespace Sys

theorem continues_cause {e : Err} (h : s.continues a = (s', .error e)) :
    ∃ c st, (c = a.esu ∨ c = a.seq) ∧ eval s'.toView a.id c st = (.error e, s'.store) ∧
      s'.toView = s.toView := by
  unfold continues evalCond at h
  rcases h1 : (eval s.toView a.id a.esu s.store).1 with e1 | b1
  · rw [h1] at h
    simp only [Prod.mk.injEq, Except.error.injEq] at h
    obtain ⟨rfl, rfl⟩ := h
    exact ⟨a.esu, s.store, .inl rfl, Prod.ext h1 rfl, rfl⟩
  · rw [h1] at h
    cases b1 with
    | true => simp at h
    | false =>
      dsimp only at h
      rcases h2 : (eval s.toView a.id a.seq (eval s.toView a.id a.esu s.store).2).1 with e2 | b2
      · rw [h2] at h
        simp only [Prod.mk.injEq, Except.error.injEq] at h
        obtain ⟨rfl, rfl⟩ := h
        exact ⟨a.seq, (eval s.toView a.id a.esu s.store).2, .inr rfl, Prod.ext h2 rfl, rfl⟩
      · rw [h2] at h; simp at h

theorem continues_frame {r} (h : s.continues a = (s', r)) : ∃ st, s' = s.putStore st := by
  unfold continues evalCond at h
  split at h
  · simp only [Prod.mk.injEq] at h; rename_i h1; simp only [Prod.mk.injEq] at h1
    exact ⟨_, by rw [← h.1, ← h1.1]; rfl⟩
  · simp only [Prod.mk.injEq] at h; rename_i h1; simp only [Prod.mk.injEq] at h1
    exact ⟨_, by rw [← h.1, ← h1.1]; rfl⟩
  · rename_i h1; simp only [Prod.mk.injEq] at h1
    split at h
    · simp only [Prod.mk.injEq] at h; rename_i h2; simp only [Prod.mk.injEq] at h2
      exact ⟨_, by rw [← h.1, ← h2.1, ← h1.1]; rfl⟩
    · simp only [Prod.mk.injEq] at h; rename_i h2; simp only [Prod.mk.injEq] at h2
      exact ⟨_, by rw [← h.1, ← h2.1, ← h1.1]; rfl⟩

theorem record_safe {l : List (List α)} (hx : Dict.get? s.execList a.id = some l)
    (ht : abs = true → ∃ l, Dict.get? s.timestamps a.id = some l) (set : List α) :
    ∃ t, s.record a.id abs set = (t, none) := by
  unfold record
  rw [hx]
  cases abs with
  | false => exact ⟨_, rfl⟩
  | true =>
    obtain ⟨l', hl'⟩ := ht rfl
    dsimp only
    rw [if_pos rfl, hl']
    exact ⟨_, rfl⟩

/-- If counters, lists and the clock of the execution id exist, then a step that raises has
evaluated a condition that raises. -/
theorem step_cause {log} (hcl : Shows (s.clock a.id) log)
    {f u l} (hf : Dict.get? s.countsTotal a.id = some f)
    (hu : Dict.get? s.countsUseable a.id = some u) (hx : Dict.get? s.execList a.id = some l)
    (hts : abs = true → ∃ l, Dict.get? s.timestamps a.id = some l)
    (htodo : ∀ c, pc = .choosing c → ∀ n ∈ c.todo, n ∈ s.nodes ∧ n ∈ s.queue.flatten ∧
      ∃ cond, Dict.get? s.conds n = some cond)
    (hp : ∀ e, pc ≠ .raised e) {e : Err} (h : s.step a abs pc = (s', .raised e, ev)) :
    Cause a s' e ∧ (s'.toView = s.toView ∨ ∃ c log, Shows c log ∧
      s'.toView = (s.setClock a.id c).toView) := by
  have hend : ∀ st ch s' ev, (s.putStore st).endPass a abs ch ≠ (s', .raised e, ev) := by
    intro st ch s' ev he
    unfold endPass at he
    split at he
    · rename_i hc
      obtain ⟨t, ht⟩ := record_safe (s := s.putStore st) (a := a) (abs := false) hx
        (fun h => (by cases h)) []
      rw [ht] at he
      simp at he
    · obtain ⟨c, h1, _⟩ := incrClock_safe (s := s.putStore st) (a := a) (ts := pass) hcl (by simp)
      rw [h1] at he
      simp at he
  cases pc with
  | outer =>
    unfold step at h
    rcases hc : s.continues a with ⟨t, r⟩
    rw [hc] at h
    rcases r with e' | b
    · simp only [Prod.mk.injEq, PC.raised.injEq] at h
      obtain ⟨rfl, rfl, _⟩ := h
      obtain ⟨c, st, h1, h2, h3⟩ := continues_cause hc
      exact ⟨⟨c, st, h1.elim .inl fun h => .inr (.inl h), h2⟩, .inl h3⟩
    · obtain ⟨st, rfl⟩ := continues_frame hc
      cases b with
      | true =>
        dsimp only at h
        unfold resetTotal at h
        rw [show Dict.get? (s.putStore st).countsTotal a.id = some f from hf] at h
        simp at h
      | false =>
        dsimp only at h
        unfold finish at h
        have hfin : ∀ (t t' : Sys α κ W) e', t.evalCond a.id a.seq = (t', .error e') →
            Cause a t' e' ∧ t'.toView = t.toView := by
          intro t t' e' ht
          unfold evalCond at ht
          simp only [Prod.mk.injEq] at ht
          obtain ⟨rfl, ht⟩ := ht
          exact ⟨⟨a.seq, t.store, .inr (.inl rfl), Prod.ext ht rfl⟩, rfl⟩
        cases hs : a.skip with
        | true =>
          rw [hs] at h
          simp only [if_true] at h
          split at h
          · rename_i h5
            simp only [Prod.mk.injEq, PC.raised.injEq] at h
            obtain ⟨rfl, rfl, _⟩ := h
            exact ⟨(hfin _ _ _ h5).1, .inl (hfin _ _ _ h5).2⟩
          · simp at h
        | false =>
          rw [hs] at h
          obtain ⟨c, h3, h4⟩ := incrClock_safe (s := s.putStore st) (a := a)
            (ts := environment_state_update) hcl (by simp)
          simp only [Bool.false_eq_true, if_false, h3] at h
          split at h
          · rename_i h5
            simp only [Prod.mk.injEq, PC.raised.injEq] at h
            obtain ⟨rfl, rfl, _⟩ := h
            exact ⟨(hfin _ _ _ h5).1, .inr ⟨c, _, h4, (hfin _ _ _ h5).2⟩⟩
          · simp at h
  | inner idx ch =>
    simp only [step] at h
    split at h
    · exact absurd h (hend s.store ch _ _)
    · rcases hc : s.continues a with ⟨t, r⟩
      rw [hc] at h
      rcases r with e' | b
      · simp only [Prod.mk.injEq, PC.raised.injEq] at h
        obtain ⟨rfl, rfl, _⟩ := h
        obtain ⟨c, st, h1, h2, h3⟩ := continues_cause hc
        exact ⟨⟨c, st, h1.elim .inl fun h => .inr (.inl h), h2⟩, .inl h3⟩
      · obtain ⟨st, rfl⟩ := continues_frame hc
        cases b with
        | true => simp at h
        | false => exact absurd h (hend st ch _ _)
  | choosing c =>
    have ht := htodo c rfl
    simp only [step] at h
    unfold choose at h
    split at h
    · split at h
      · simp at h
      · unfold endChoice at h
        dsimp only at h
        split at h
        · obtain ⟨t, ht⟩ := record_safe (s := s) (a := a) (abs := abs) hx hts c.exec
          rw [ht] at h
          simp at h
        · simp at h
    · rename_i n ns hcons
      split at h
      · simp at h
      · obtain ⟨hn, hq, cond, hc⟩ := ht n (by rw [hcons]; simp)
        unfold considerNode evalCond at h
        rw [hc] at h
        dsimp only at h
        rcases h2 : (eval s.toView a.id cond s.store).1 with e2 | b2
        · rw [h2] at h
          simp only [Prod.mk.injEq, PC.raised.injEq] at h
          obtain ⟨rfl, rfl, _⟩ := h
          exact ⟨⟨cond, s.store, .inr (.inr ⟨n, hq, hc⟩), Prod.ext h2 rfl⟩, .inl rfl⟩
        · rw [h2] at h
          cases b2 with
          | false => simp at h
          | true =>
            dsimp only at h
            unfold fire at h
            dsimp only at h
            rw [hf] at h
            dsimp only at h
            rw [if_pos hn, hu] at h
            simp at h
  | yielded idx ch =>
    unfold step at h
    obtain ⟨c, h1, _⟩ := incrClock_safe (a := a) (ts := consideration_set_execution) hcl (by simp)
    rw [h1] at h
    simp at h
  | yieldedEmpty =>
    unfold step at h
    obtain ⟨c, h1, h2⟩ := incrClock_safe (a := a) (ts := consideration_set_execution) hcl (by simp)
    rw [h1] at h
    dsimp only at h
    obtain ⟨c', h3, _⟩ := incrClock_safe (s := s.setClock a.id c) (a := a) (ts := pass)
      (by rw [clock_setClock]; exact h2) (by simp)
    rw [h3] at h
    simp at h
  | returned => simp [step] at h
  | raised e => exact absurd rfl (hp e)

end Sys

/-! ## Conditions that make sense -/

/-- What the view of a running scheduler has. -/
structure Ready (S : Setting α κ W) (v : View α κ W) : Prop where
  nodes : v.nodes = S.nodes
  world : S.worlds v.world
  placed : ∀ n ∈ S.nodes, ∃ i, At v.queue i n
  clock : ∃ log, Shows (v.clock S.id) log
  total : ∃ f, Dict.get? v.countsTotal S.id = some f
  useable : ∃ f, Dict.get? v.countsUseable S.id = some f
  list : ∃ l, Dict.get? v.execList S.id = some l ∧ (S.ranBefore → l ≠ [])

variable {S : Setting α κ W} {v : View α κ W} {st st' : Store α κ}

theorem clock_answers {c : Clock} {log} (h : Shows c log) {q ts : TimeScale} (hq : q ≠ life)
    (hts : q = consideration_set_execution → ts ≠ pass) :
    ∃ n, c.getTotalTimesRelative q ts = .ok n := by
  by_cases hle : ts.val ≤ q.val
  · obtain ⟨hn, c0, h1, h2, h3⟩ := h
    refine ⟨log.count q, ?_⟩
    rw [← C21_clock_life hn c0 h1 q ts hq (.inr hle) none]
    simp only [Clock.getTotalTimesRelative, Clock.getTimeByTimeScale, Time.get, h2, h3]
  · refine ⟨_, clock_elapsed h ?_ (by omega)⟩
    revert hts hle hq
    cases q <;> cases ts <;> simp [Recorded, val]

theorem layerOffset_some {q : List (List α)} {n : α} {i : Nat} (u : Rat) (hi : At q i n) :
    ∃ off, layerOffset (some n) u q = some off := by
  unfold layerOffset
  have gen : ∀ (l : List (List α × Nat)) (off : Option Rat),
      (off.isSome ∨ ∃ p ∈ l, n ∈ p.1) → (l.foldl (fun off p => match (some n : Option α) with
        | some o => if o ∈ p.1 then some ((p.2 : Rat) * u) else off
        | none => off) off).isSome := by
    intro l
    induction l with
    | nil => intro off h; exact h.elim id fun ⟨_, h, _⟩ => (by cases h)
    | cons x l ih =>
      intro off h
      rw [List.foldl_cons]
      apply ih
      dsimp only
      by_cases hx : n ∈ x.1
      · rw [if_pos hx]; exact .inl rfl
      · rw [if_neg hx]
        rcases h with h | ⟨p, hp, hnp⟩
        · exact .inl h
        · rcases List.mem_cons.1 hp with rfl | hp
          · exact absurd hnp hx
          · exact .inr ⟨p, hp, hnp⟩
  obtain ⟨l, h1, h2⟩ := hi
  exact Option.isSome_iff_exists.1
    (gen _ none (.inr ⟨(l, i), List.mem_zipIdx_iff_getElem?.2 h1, h2⟩))

theorem Spec.OwnedBy.owner {o : Nat} (h : OwnedBy S st o) (hst : st'.owner = st.owner) :
    ∃ n ∈ S.nodes, st'.owner o = some n := by
  obtain ⟨_, n, h1, h2⟩ := h
  exact ⟨n, h1, by rw [hst]; exact h2⟩

theorem Ready.total_ok (hv : Ready S v) {d : α} (hd : d ∈ S.nodes) (ts : TimeScale) :
    ∃ k, v.total S.id ts d = .ok k := by
  obtain ⟨f, hf⟩ := hv.total
  unfold View.total
  rw [hf]
  exact ⟨_, if_pos (by rw [hv.nodes]; exact hd)⟩

theorem Ready.callCount_ok (hv : Ready S v) {d : α} (hd : d ∈ S.nodes) (ts : TimeScale)
    (g : Int → Bool) : ∃ b, callCount v S.id ts d g = .ok b := by
  obtain ⟨k, hk⟩ := hv.total_ok hd ts
  unfold callCount
  rw [hk]
  exact ⟨_, rfl⟩

theorem Ready.relTime_ok (hv : Ready S v) {q ts : TimeScale} (hq : q ≠ life)
    (hts : q = consideration_set_execution → ts ≠ pass) (g : Int → Bool) :
    ∃ b, relTime v S.id q ts g = .ok b := by
  obtain ⟨log, hl⟩ := hv.clock
  obtain ⟨k, hk⟩ := clock_answers hl hq hts
  unfold relTime
  rw [hk]
  exact ⟨_, rfl⟩

theorem Ready.sum_ok (hv : Ready S v) (ts : TimeScale) : ∀ ds : List α, (∀ d ∈ ds, d ∈ S.nodes) →
    ∃ k, sumCalls v S.id ts ds = .ok k
  | [], _ => ⟨0, rfl⟩
  | d :: ds, h => by
    obtain ⟨k, hk⟩ := hv.total_ok (h d (by simp)) ts
    obtain ⟨m, hm⟩ := hv.sum_ok ts ds fun x hx => h x (by simp [hx])
    simp only [sumCalls, hk, hm]
    exact ⟨_, rfl⟩

theorem Ready.allHaveRun_ok (hv : Ready S v) (ts : TimeScale) : ∀ ds : List α,
    (∀ d ∈ ds, d ∈ S.nodes) → ∃ b, allHaveRunFunc v S.id ts ds = .ok b
  | [], _ => ⟨true, rfl⟩
  | d :: ds, h => by
    obtain ⟨k, hk⟩ := hv.total_ok (h d (by simp)) ts
    simp only [allHaveRunFunc, hk]
    by_cases hk1 : k < 1
    · rw [if_pos hk1]; exact ⟨_, rfl⟩
    · rw [if_neg hk1]; exact hv.allHaveRun_ok ts ds fun x hx => h x (by simp [hx])

theorem Ready.finished_ok (hv : Ready S v) {d : α} (hd : Answers S d) :
    ∃ b, isFinished v S.id d = .ok b := by
  obtain ⟨b, hb⟩ := hd _ hv.world
  unfold isFinished
  rw [hb]
  exact ⟨b, rfl⟩

theorem Ready.finishedAny_ok (hv : Ready S v) : ∀ ds : List α,
    (∀ d ∈ ds, Answers S d) → ∃ b, finishedAny v S.id ds = .ok b
  | [], _ => ⟨false, rfl⟩
  | d :: ds, h => by
    obtain ⟨b, hb⟩ := hv.finished_ok (h d (by simp))
    simp only [finishedAny, hb]
    cases b
    · exact hv.finishedAny_ok ds fun x hx => h x (by simp [hx])
    · exact ⟨_, rfl⟩

theorem Ready.finishedAll_ok (hv : Ready S v) : ∀ ds : List α,
    (∀ d ∈ ds, Answers S d) → ∃ b, finishedAll v S.id ds = .ok b
  | [], _ => ⟨true, rfl⟩
  | d :: ds, h => by
    obtain ⟨b, hb⟩ := hv.finished_ok (h d (by simp))
    simp only [finishedAll, hb]
    cases b
    · exact ⟨_, rfl⟩
    · exact hv.finishedAll_ok ds fun x hx => h x (by simp [hx])

theorem timeInterval_answers {id : Option κ} {own : Option α} {rep sta fin : Option Qty}
    (hoff : rep ≠ none → ∀ u, ∃ off, layerOffset own u v.queue = some off)
    (hr : ∀ r, rep = some r → r.val ≠ 0) (si ei : Bool) :
    ∃ b, timeIntervalFunc v id own rep sta fin si ei = .ok b := by
  have key : ∀ t off, (rep ≠ none → ∃ x, off = some x) → ∃ b, repeatOk t off rep = .ok b := by
    intro t off h
    cases rep with
    | none => exact ⟨true, rfl⟩
    | some r =>
      obtain ⟨x, rfl⟩ := h (by simp)
      simp only [repeatOk]
      rw [if_neg (hr r rfl)]
      exact ⟨_, rfl⟩
  unfold timeIntervalFunc
  dsimp only
  cases sta with
  | none =>
    obtain ⟨b, hb⟩ := key (v.clock id).time.absolute _ fun h => hoff h (v.clock id).time.absolute_interval
    rw [hb]; exact ⟨_, rfl⟩
  | some q =>
    dsimp only
    by_cases hx : v.inExactTimeMode = true
    · rw [if_pos hx]
      obtain ⟨b, hb⟩ := key (v.clock id).time.absolute _ fun _ => ⟨q.val, rfl⟩
      rw [hb]; exact ⟨_, rfl⟩
    · rw [if_neg hx]
      obtain ⟨b, hb⟩ := key (v.clock id).time.absolute _ fun h => hoff h (v.clock id).time.absolute_interval
      rw [hb]; exact ⟨_, rfl⟩

theorem leaf_sane (hv : Ready S v) {o : Nat} {k : Leaf α κ W} (hk : SaneLeaf S st o k)
    (hst : st'.owner = st.owner) : ∃ b, evalLeaf v S.id (st'.owner o) k = .ok b := by
  cases k with
  | func f => exact hk _ _ _
  | always => exact ⟨_, rfl⟩
  | never => exact ⟨_, rfl⟩
  | timeInterval rep sta fin si ei =>
    refine timeInterval_answers (fun hr => ?_) (fun r hr => (hk r hr).1) _ _
    obtain ⟨r, hr⟩ := Option.ne_none_iff_exists'.1 hr
    obtain ⟨n, hn, ho⟩ := (hk r hr).2.owner hst
    obtain ⟨i, hi⟩ := hv.placed n hn
    rw [ho]
    exact fun u => layerOffset_some u hi
  | timeTermination t incl =>
    simp only [evalLeaf]
    split <;> exact ⟨_, rfl⟩
  | beforeConsiderationSetExecution n ts => simp only [evalLeaf]; exact hv.relTime_ok (q := consideration_set_execution) (by simp) (fun _ => hk) _
  | atConsiderationSetExecution n ts => simp only [evalLeaf]; exact hv.relTime_ok (q := consideration_set_execution) (by simp) (fun _ => hk) _
  | afterConsiderationSetExecution n ts => simp only [evalLeaf]; exact hv.relTime_ok (q := consideration_set_execution) (by simp) (fun _ => hk) _
  | afterNConsiderationSetExecutions n ts => simp only [evalLeaf]; exact hv.relTime_ok (q := consideration_set_execution) (by simp) (fun _ => hk) _
  | beforePass n ts => simp only [evalLeaf]; exact hv.relTime_ok (q := pass) (by simp) (by simp) _
  | atPass n ts => simp only [evalLeaf]; exact hv.relTime_ok (q := pass) (by simp) (by simp) _
  | afterPass n ts => simp only [evalLeaf]; exact hv.relTime_ok (q := pass) (by simp) (by simp) _
  | afterNPasses n ts => simp only [evalLeaf]; exact hv.relTime_ok (q := pass) (by simp) (by simp) _
  | everyNPasses n ts =>
    obtain ⟨log, hl⟩ := hv.clock
    obtain ⟨m, hm⟩ := clock_answers hl (q := pass) (ts := ts) (by simp) (by simp)
    simp only [evalLeaf, hm]
    rw [if_neg hk]
    exact ⟨_, rfl⟩
  | beforeEnvironmentStateUpdate n ts => simp only [evalLeaf]; exact hv.relTime_ok (q := environment_state_update) (by simp) (by simp) _
  | atEnvironmentStateUpdate n ts => simp only [evalLeaf]; exact hv.relTime_ok (q := environment_state_update) (by simp) (by simp) _
  | afterEnvironmentStateUpdate n ts => simp only [evalLeaf]; exact hv.relTime_ok (q := environment_state_update) (by simp) (by simp) _
  | afterNEnvironmentStateUpdates n ts => simp only [evalLeaf]; exact hv.relTime_ok (q := environment_state_update) (by simp) (by simp) _
  | atEnvironmentSequence n => exact ⟨_, rfl⟩
  | afterEnvironmentSequence n => exact ⟨_, rfl⟩
  | afterNEnvironmentSequences n => exact ⟨_, rfl⟩
  | beforeNCalls d n ts => simp only [evalLeaf]; exact hv.callCount_ok hk _ _
  | atNCalls d n ts => simp only [evalLeaf]; exact hv.callCount_ok hk _ _
  | afterCall d n ts => simp only [evalLeaf]; exact hv.callCount_ok hk _ _
  | afterNCalls d n ts => simp only [evalLeaf]; exact hv.callCount_ok hk _ _
  | afterNCallsCombined ds n ts =>
    obtain ⟨m, rfl⟩ := Option.ne_none_iff_exists'.1 hk.1
    obtain ⟨k, hk⟩ := hv.sum_ok ts ds hk.2
    simp only [evalLeaf, hk]
    exact ⟨_, rfl⟩
  | everyNCalls d n =>
    obtain ⟨m, hm, ho⟩ := OwnedBy.owner hk.2 hst
    obtain ⟨f, hf⟩ := hv.useable
    simp only [evalLeaf, View.useable, hf, ho]
    rw [if_pos (by rw [hv.nodes]; exact hk.1), if_pos (by rw [hv.nodes]; exact hm)]
    exact ⟨_, rfl⟩
  | justRan d =>
    obtain ⟨l, hl, hne⟩ := hv.list
    have hne := hne hk
    simp only [evalLeaf, justRanFunc, Dict.get, hl]
    obtain ⟨x, xs, rfl⟩ : ∃ x xs, l = xs ++ [x] :=
      ⟨l.getLast hne, l.dropLast, (List.dropLast_concat_getLast hne).symm⟩
    have := pyIndex_back (xs ++ [x]) 0
    simp only [List.reverse_append, List.reverse_cons, List.reverse_nil, List.nil_append,
      List.singleton_append, List.getElem?_cons_zero, orIndexError] at this
    rw [show (-1 : Int) = -((0 : Nat) + 1 : Int) from rfl, this]
    exact ⟨_, rfl⟩
  | allHaveRun ds ts =>
    refine hv.allHaveRun_ok ts _ ?_
    split
    · rw [hv.nodes]; exact fun d hd => hd
    · exact hk
  | whenFinished d => exact hv.finished_ok hk
  | whenFinishedAny ds =>
    refine hv.finishedAny_ok _ ?_
    rw [hv.nodes]; exact hk
  | whenFinishedAll ds =>
    refine hv.finishedAll_ok _ ?_
    rw [hv.nodes]; exact hk
  | threshold d p thr cmp is atol rtol g =>
    obtain ⟨x, q, h1, h2⟩ := hk _ hv.world
    have : thresholdValue v.world S.id d p is g = .ok q := by
      cases is with
      | none => exact (thresholdValue_ok (ix := .none)).2 ⟨x, h1, h2⟩
      | some l => exact (thresholdValue_ok (ix := .many l)).2 ⟨x, h1, h2⟩
    simp only [evalLeaf, this]
    exact ⟨_, rfl⟩

mutual
theorem eval_sane (hv : Ready S v) (st : Store α κ) : ∀ (c : Cond α κ W) (st' : Store α κ),
    Sane S st c → st'.owner = st.owner → ∃ b, (eval v S.id c st').1 = .ok b
  | .leaf o k, st', hk, hst => by
    obtain ⟨b, hb⟩ := leaf_sane hv hk hst
    exact ⟨b, by simp only [eval, hb]⟩
  | .whileNot o f, st', hk, hst => by
    obtain ⟨b, hb⟩ := hk v S.id (st'.owner o)
    exact ⟨!b, by simp only [eval, hb, notResult]⟩
  | .all o args, st', hk, hst => by
    simp only [eval]; exact evalAll_sane hv st args st' hk hst
  | .any o args, st', hk, hst => by
    simp only [eval]; exact evalAny_sane hv st args st' hk hst
  | .not o c, st', hk, hst => by
    obtain ⟨b, hb⟩ := eval_sane hv st c st' hk hst
    exact ⟨!b, by simp only [eval, hb, notResult]⟩
  | .nwhen o c n, st', hk, hst => by
    simp only [eval]
    split
    · obtain ⟨b, hb⟩ := eval_sane hv st c st' hk hst
      rcases hp : eval v S.id c st' with ⟨r, st2⟩
      rw [hp] at hb
      simp only at hb
      subst hb
      cases b <;> exact ⟨_, rfl⟩
    · exact ⟨_, rfl⟩
theorem evalAll_sane (hv : Ready S v) (st : Store α κ) : ∀ (cs : List (Cond α κ W))
    (st' : Store α κ), SaneAll S st cs → st'.owner = st.owner →
    ∃ b, (evalAll v S.id cs st').1 = .ok b
  | [], _, _, _ => ⟨true, rfl⟩
  | c :: cs, st', hk, hst => by
    obtain ⟨b, hb⟩ := eval_sane hv st c st' hk.1 hst
    have ho := (eval_store v S.id c st').owner
    rcases hp : eval v S.id c st' with ⟨r, st2⟩
    rw [hp] at hb ho
    simp only at hb ho
    subst hb
    simp only [evalAll, hp]
    cases b
    · exact ⟨_, rfl⟩
    · exact evalAll_sane hv st cs st2 hk.2 (ho.trans hst)
theorem evalAny_sane (hv : Ready S v) (st : Store α κ) : ∀ (cs : List (Cond α κ W))
    (st' : Store α κ), SaneAll S st cs → st'.owner = st.owner →
    ∃ b, (evalAny v S.id cs st').1 = .ok b
  | [], _, _, _ => ⟨false, rfl⟩
  | c :: cs, st', hk, hst => by
    obtain ⟨b, hb⟩ := eval_sane hv st c st' hk.1 hst
    have ho := (eval_store v S.id c st').owner
    rcases hp : eval v S.id c st' with ⟨r, st2⟩
    rw [hp] at hb ho
    simp only at hb ho
    subst hb
    simp only [evalAny, hp]
    cases b
    · exact evalAny_sane hv st cs st2 hk.2 (ho.trans hst)
    · exact ⟨_, rfl⟩
end

/-- The owners of the objects in a condition may be written down more completely. -/
theorem Spec.OwnedBy.ext {o : Nat} (h : OwnedBy S st o) (hx : StoreExt st st') : OwnedBy S st' o := by
  obtain ⟨h1, n, h2, h3⟩ := h
  exact ⟨Nat.lt_of_lt_of_le h1 hx.fresh, n, h2, by rw [hx.owner o h1]; exact h3⟩

mutual
theorem Spec.Sane.ext (hx : StoreExt st st') : ∀ c : Cond α κ W, Sane S st c → Sane S st' c
  | .leaf o k, h => by
    cases k
    case timeInterval => exact fun r hr => ⟨(h r hr).1, (h r hr).2.ext hx⟩
    case everyNCalls => exact ⟨h.1, OwnedBy.ext h.2 hx⟩
    all_goals exact h
  | .whileNot _ _, h => h
  | .all _ args, h => Spec.SaneAll.ext hx args h
  | .any _ args, h => Spec.SaneAll.ext hx args h
  | .not _ c, h => Spec.Sane.ext hx c h
  | .nwhen _ c _, h => Spec.Sane.ext hx c h
theorem Spec.SaneAll.ext (hx : StoreExt st st') : ∀ cs : List (Cond α κ W),
    SaneAll S st cs → SaneAll S st' cs
  | [], _ => trivial
  | c :: cs, h => ⟨Spec.Sane.ext hx c h.1, Spec.SaneAll.ext hx cs h.2⟩
end

mutual
theorem sane_owned (h : ∀ {o}, OwnedBy S st o → OwnedBy S st' o) : ∀ c : Cond α κ W,
    Sane S st c → Sane S st' c
  | .leaf o k, hk => by
    cases k
    case timeInterval => exact fun r hr => ⟨(hk r hr).1, h (hk r hr).2⟩
    case everyNCalls => exact ⟨hk.1, h hk.2⟩
    all_goals exact hk
  | .whileNot _ _, hk => hk
  | .all _ args, hk => saneAll_owned h args hk
  | .any _ args, hk => saneAll_owned h args hk
  | .not _ c, hk => sane_owned h c hk
  | .nwhen _ c _, hk => sane_owned h c hk
theorem saneAll_owned (h : ∀ {o}, OwnedBy S st o → OwnedBy S st' o) : ∀ cs : List (Cond α κ W),
    SaneAll S st cs → SaneAll S st' cs
  | [], _ => trivial
  | c :: cs, hk => ⟨sane_owned h c hk.1, saneAll_owned h cs hk.2⟩
end

end GS
